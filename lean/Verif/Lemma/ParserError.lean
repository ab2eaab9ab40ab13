import Mathlib.Tactic.IntervalCases
import Verif.Lemma.LemonMap
import Verif.Lemma.DeckInv
import Verif.Lemma.DeckTextRev
import Verif.Lemma.Fault
import Verif.Spec.ParserError

/-!
# Exceptions from reading a setup file
-/

namespace Schnek.Lemma.ParserError

open Schnek.Deck Schnek.Spec Schnek.Scanner ParserToken DeckState Schnek.Lemma.Deck

variable {F W : Type}

/-! ## what holds whenever an action is executed -/

/-- the classes of the blocks -/
def blockClasses (S : Storage) : List String := S.blocks.map BlockVars.className

theorem map_modify {α β : Type} (l : List α) (i : ℕ) (f : α → α) (g : α → β) (h : ∀ a, g (f a) = g a) : (l.modify i f).map g = l.map g := by
  apply List.ext_getElem?
  intro j
  rw [List.getElem?_map, List.getElem?_map, List.getElem?_modify]
  cases l[j]? with
  | none => rfl
  | some a =>
    by_cases hij : i = j
    · simp [hij, h]
    · simp [hij]

theorem blockClasses_addVariableTo {S T : Storage} {b : ℕ} {n : String} {v : ℕ} (h : S.addVariableTo b n v = some T) :
    blockClasses T = blockClasses S := by
  unfold Storage.addVariableTo at h
  split at h
  · cases h
  · cases h
    exact map_modify _ _ _ _ fun _ => rfl

theorem blockClasses_createBlock {S T : Storage} {n c : String} (h : S.createBlock n c = some T) :
    blockClasses T = blockClasses S ++ [c] := by
  unfold Storage.createBlock at h
  split at h
  · cases h
  · cases h
    unfold blockClasses
    simp only [List.map_append, List.map_cons, List.map_nil]
    rw [map_modify]
    exact fun _ => rfl

/-- the classes of all blocks are registered -/
def Registered (D : DeckState F W) : Prop := ∀ c ∈ blockClasses D.store, c ∈ D.classes.map Prod.fst

theorem registered_params (H : Host F W) (ctx : ℕ) (specs : List (ParamSpec F)) (s : DeckState F W × List (String × BlockParam)) :
    blockClasses (specs.foldl (addParameter H ctx) s).1.store = blockClasses s.1.store ∧
      (specs.foldl (addParameter H ctx) s).1.classes = s.1.classes := by
  induction specs generalizing s with
  | nil => exact ⟨rfl, rfl⟩
  | cons p ps ih =>
    obtain ⟨h1, h2⟩ := ih (addParameter H ctx s p)
    refine ⟨h1.trans ?_, h2⟩
    show blockClasses ((s.1.store.addVariableTo ctx p.name s.1.heap.length).getD s.1.store) = _
    rcases h : s.1.store.addVariableTo ctx p.name s.1.heap.length with _ | T
    · rfl
    · exact blockClasses_addVariableTo h

theorem registered_enterBlock (H : Host F W) (D : DeckState F W) (n c : String)
    (h : ∀ x ∈ blockClasses D.store, x ∈ D.classes.map Prod.fst ∨ x = c) : Registered (enterBlock H D n c) := by
  obtain ⟨l, hl, -, d, hd, -⟩ := getClass_snd D c
  have hc : Registered (D.getClass c).2 := by
    rw [hl]
    intro x hx
    show x ∈ (D.classes ++ l).map Prod.fst
    rcases h x hx with h | rfl
    · rw [List.map_append]
      exact List.mem_append_left _ h
    · by_contra hn
      rw [(Vars.find_none _ _).2 hn] at hd
      cases hd
  rcases hf : (D.getClass c).1.factory with _ | specs
  · rw [enterBlock_none H D n c hf]
    exact hc
  · rw [enterBlock_some H D n c specs hf]
    obtain ⟨h1, h2⟩ := registered_params H (D.getClass c).2.store.cursor specs ((D.getClass c).2, [])
    intro x hx
    show x ∈ (specs.foldl (addParameter H (D.getClass c).2.store.cursor) ((D.getClass c).2, [])).1.classes.map Prod.fst
    rw [h2]
    refine hc x ?_
    rw [← h1]
    exact hx

/-- what holds whenever an action is executed -/
structure Sane (D : DeckState F W) : Prop where
  dinv : DInv D
  registered : Registered D

theorem sane_congr {D D' : DeckState F W} (h : Sane D) (h1 : D'.store = D.store) (h2 : D'.heap = D.heap) (h3 : D.nextId ≤ D'.nextId)
    (h4 : D'.classes = D.classes) : Sane D' :=
  ⟨h.dinv.congr h1 h2 h3, by unfold Registered; rw [h1, h4]; exact h.registered⟩

theorem sane_storeData (H : Host F W) (typedecl : TokData F W) (D : DeckState F W) (t : TokData F W) (h : Sane D) :
    Sane (storeData H typedecl D t).2 := by
  unfold storeData
  split
  · exact h
  · rename_i e _
    split
    · exact h
    · rename_i x hx
      obtain ⟨x1, x2, -⟩ := evaluate_typed hx
      have key : ∀ r : Option (Variable F W) × DeckState F W, ensureVariable H { D with nextId := D.nextId + 1 } typedecl t x = r →
          (r.1 = none → Sane r.2) ∧ ∀ x', r.1 = some x' → Sane r.2 ∧ r.2.store = D.store ∧ r.2.heap = D.heap ∧ r.2.classes = D.classes ∧
            ∃ D0, Sane D0 ∧ D0.store = D.store ∧ D0.heap = D.heap ∧ D0.nextId = x'.id ∧ r.2.nextId = x'.id + 1 ∧ Typed x' := by
        intro r hr
        have hs : Sane { D with nextId := D.nextId + 1 } := sane_congr h rfl rfl (by simp) rfl
        have hs2 : Sane { D with nextId := D.nextId + 1 + 1 } := sane_congr h rfl rfl (by simp; omega) rfl
        unfold ensureVariable at hr
        split at hr
        · subst hr
          exact ⟨fun _ => hs, fun _ h => by cases h⟩
        · split at hr
          · split at hr
            · subst hr
              refine ⟨fun h => (by cases h), fun x' hx' => ?_⟩
              cases hx'
              exact ⟨hs, rfl, rfl, rfl, D, h, rfl, rfl, x2.symm, by rw [x2], x1⟩
            · subst hr
              exact ⟨fun _ => hs, fun _ h => by cases h⟩
          · split at hr
            · subst hr
              exact ⟨fun _ => hs, fun _ h => by cases h⟩
            · subst hr
              refine ⟨fun h => (by cases h), fun x' hx' => ?_⟩
              cases hx'
              exact ⟨hs2, rfl, rfl, rfl, _, hs, rfl, rfl, rfl, rfl, fun _ => rfl, fun h => by simp [Variable.ofValue] at h⟩
          · subst hr
            exact ⟨fun _ => hs, fun _ h => by cases h⟩
      rcases hr : ensureVariable H { D with nextId := D.nextId + 1 } typedecl t x with ⟨_ | x', D'⟩
      · exact (key _ hr).1 rfl
      · obtain ⟨k1, k2, k3, k4, D0, k5, k6, k7, k8, k9, k10⟩ := (key _ hr).2 x' rfl
        simp only at k1 k2 k3 k4 k9 ⊢
        rcases ha : D'.store.addVariable t.text D'.heap.length with _ | st
        · exact k1
        · refine ⟨?_, ?_⟩
          · refine k5.dinv.push D0.store.cursor t.text x' k10 k8.symm (Or.inr ?_) (by rw [k7, k3]) (by rw [k8]; exact k9)
            unfold Storage.addVariable at ha
            rw [k2, k3] at ha
            rw [k6, k7]
            exact ha
          · intro c hc
            show c ∈ D'.classes.map Prod.fst
            rw [k4]
            refine h.registered c ?_
            rw [← k2, ← blockClasses_addVariableTo ha]
            exact hc

theorem sane_chain {α : Type} (f : DeckState F W → α → Bool × DeckState F W) (hf : ∀ D a, Sane D → Sane (f D a).2) :
    ∀ (l : List α) (D : DeckState F W), Sane D → Sane (chain f l D).2 := by
  intro l
  induction l with
  | nil => intro D h; exact h
  | cons a l ih =>
    intro D h
    rw [chain_cons]
    split
    · exact ih _ (hf D a h)
    · exact hf D a h

theorem sane_update (H : Host F W) (D : DeckState F W) (p : ParserToken F W) (h : Sane D) : Sane (updateVariable H D p).2 := by
  unfold updateVariable
  split
  · exact h
  · rename_i v hv
    split
    · rename_i x e hx he
      split
      · exact h
      · rename_i y hy
        split
        · exact sane_congr h rfl rfl (by simp) rfl
        · rename_i x' hx'
          refine ⟨?_, h.registered⟩
          obtain ⟨a1, a2, a3, a4, a5, a6, a7, a8, a9⟩ := assign_spec hx'
          obtain ⟨b1, b2, -⟩ := evaluate_typed hy
          have hlt := (List.getElem?_eq_some_iff.mp hx).1
          have hget : ∀ (w : ℕ) (z : Variable F W), (D.heap.set v x')[w]? = some z → (w = v ∧ z = x') ∨ (w ≠ v ∧ D.heap[w]? = some z) := by
            intro w z hz
            by_cases hw : v = w
            · subst hw
              rw [List.getElem?_set_self hlt, Option.some.injEq] at hz
              exact Or.inl ⟨rfl, hz.symm⟩
            · rw [List.getElem?_set_ne hw] at hz
              exact Or.inr ⟨Ne.symm hw, hz⟩
          have hid : x'.id = D.nextId := by rw [a9, b2]
          have h := h.dinv
          refine ⟨h.store, ?_, h.once, ?_, ?_, ?_, ?_, ?_⟩
          · intro b m w hw
            rw [List.length_set]
            exact h.bound b m w hw
          · intro w z hz
            rcases hget w z hz with ⟨-, rfl⟩ | ⟨-, hz⟩
            · unfold Typed
              rw [a5, a6, a7, a3, a2]
              exact b1
            · exact h.typed w z hz
          · intro w z hz
            rcases hget w z hz with ⟨-, rfl⟩ | ⟨-, hz⟩
            · rw [hid]; exact h.next
            · exact h.nonneg w z hz
          · intro w z hz
            show z.id < D.nextId + 1
            rcases hget w z hz with ⟨-, rfl⟩ | ⟨-, hz⟩
            · omega
            · have := h.lt w z hz; omega
          · intro w u z z' hz hz' he
            rcases hget w z hz with ⟨hw, hzx⟩ | ⟨hne, hz1⟩ <;> rcases hget u z' hz' with ⟨hu, hzx'⟩ | ⟨hne', hz2⟩
            · rw [hw, hu]
            · have := h.lt u z' hz2; rw [hzx] at he; omega
            · have := h.lt w z hz1; rw [hzx'] at he; omega
            · exact h.inj w u z z' hz1 hz2 he
          · have := h.next; show 0 ≤ D.nextId + 1; omega
    · exact h

theorem sane_createBlock (H : Host F W) (D : DeckState F W) (c n : String) (h : Sane D) : Sane (D.createBlock H c n).2 := by
  refine ⟨dinv_createBlock H D c n h.dinv, ?_⟩
  unfold DeckState.createBlock
  split
  · exact h.registered
  · split
    · exact h.registered
    · rename_i st hst
      refine registered_enterBlock H _ n c fun x hx => ?_
      rw [show blockClasses ({ D with store := st } : DeckState F W).store = blockClasses D.store ++ [c] from blockClasses_createBlock hst] at hx
      rcases List.mem_append.1 hx with hx | hx
      · exact Or.inl (h.registered x hx)
      · exact Or.inr (List.mem_singleton.1 hx)

theorem sane_endBlock (D : DeckState F W) (h : Sane D) : Sane D.endBlock.2 := by
  refine ⟨dinv_endBlock D h.dinv, ?_⟩
  unfold endBlock
  split
  · exact h.registered
  · exact h.registered

theorem quiet_state (H : Host F W) (r : ℕ) (hr : r < 48) (h3 : r ≠ 3) (h4 : r ≠ 4) (h7 : r ≠ 7) (h9 : r ≠ 9) (h10 : r ≠ 10)
    (vs : List (ParserToken F W)) (D : DeckState F W) : (deckAct H r vs D).2 = D := by
  rcases vs with _ | ⟨a, _ | ⟨b, _ | ⟨c, _ | ⟨d, _ | ⟨e, vs⟩⟩⟩⟩⟩ <;> interval_cases r <;> first | rfl | contradiction

theorem sane_act (H : Host F W) (r : ℕ) (hr : r < 48) (vs : List (ParserToken F W)) (D : DeckState F W) (h : Sane D) :
    Sane (deckAct H r vs D).2 := by
  have hc : ∀ c n : ParserToken F W, Sane (effect (ParserToken.createBlock H D c n)).2 := by
    intro c n
    show Sane (ParserToken.createBlock H D c n).2
    unfold ParserToken.createBlock
    split
    · exact h
    · split
      · exact h
      · exact sane_createBlock H D _ _ h
  by_cases h3 : r = 3
  · subst h3
    rcases vs with _ | ⟨a, _ | ⟨b, _ | ⟨c, _ | ⟨d, vs⟩⟩⟩⟩
    case cons.cons.cons.nil => exact sane_chain _ (sane_storeData H _) _ D h
    all_goals exact h
  by_cases h4 : r = 4
  · subst h4
    rcases vs with _ | ⟨a, _ | ⟨b, _ | ⟨c, vs⟩⟩⟩
    case cons.cons.nil => exact sane_update H D _ h
    all_goals exact h
  by_cases h7 : r = 7
  · subst h7
    rcases vs with _ | ⟨a, _ | ⟨b, vs⟩⟩
    case cons.nil => exact sane_endBlock D h
    all_goals exact h
  by_cases h9 : r = 9
  · subst h9
    rcases vs with _ | ⟨a, _ | ⟨b, _ | ⟨c, _ | ⟨d, vs⟩⟩⟩⟩
    case cons.cons.cons.nil => exact hc _ _
    all_goals exact h
  by_cases h10 : r = 10
  · subst h10
    rcases vs with _ | ⟨a, _ | ⟨b, _ | ⟨c, vs⟩⟩⟩
    case cons.cons.nil => exact hc _ _
    all_goals exact h
  rw [quiet_state H r hr h3 h4 h7 h9 h10]
  exact h

theorem sane_begin (P : Program F W) : Sane P.begin := by
  refine ⟨dinv_enterBlock _ _ _ _ (dinv_initial P), ?_⟩
  refine registered_enterBlock _ _ _ _ fun x hx => Or.inr ?_
  simpa [initial, Storage.create, blockClasses] using hx

/-! ## what a statement leaves as it was -/

theorem untouched_refl (D : DeckState F W) : Untouched D D := ⟨D.store, [], D.nextId, by simp, rfl, rfl, fun _ _ _ h => h⟩

theorem untouched_trans {D D1 D2 : DeckState F W} (h : Untouched D D1) (h' : Untouched D1 D2) : Untouched D D2 := by
  obtain ⟨st, heap, id, rfl, h1, h2, h3⟩ := h
  obtain ⟨st', heap', id', rfl, h1', h2', h3'⟩ := h'
  exact ⟨st', heap ++ heap', id', by simp, h1'.trans h1, h2'.trans h2, fun b n v h => h3' b n v (h3 b n v h)⟩

theorem untouched_id (D : DeckState F W) (i : ℤ) : Untouched D { D with nextId := i } :=
  ⟨D.store, [], i, by simp, rfl, rfl, fun _ _ _ h => h⟩

theorem untouched_storeData (H : Host F W) (typedecl : TokData F W) (D : DeckState F W) (t : TokData F W) :
    Untouched D (storeData H typedecl D t).2 := by
  unfold storeData
  split
  · exact untouched_refl D
  · split
    · exact untouched_refl D
    · rename_i e _ x hx
      have h1 : ∀ r, ensureVariable H { D with nextId := D.nextId + 1 } typedecl t x = r → ∃ i, r.2 = { D with nextId := i } := by
        rintro r rfl
        unfold ensureVariable
        split
        · exact ⟨_, rfl⟩
        · split
          · split <;> exact ⟨_, rfl⟩
          · split <;> exact ⟨_, rfl⟩
          · exact ⟨_, rfl⟩
      rcases hr : ensureVariable H { D with nextId := D.nextId + 1 } typedecl t x with ⟨_ | x', D'⟩
      · obtain ⟨i, hi⟩ := h1 _ hr
        simp only at hi ⊢
        rw [hi]
        exact untouched_id D i
      · obtain ⟨i, hi⟩ := h1 _ hr
        simp only at hi ⊢
        subst hi
        rcases ha : D.store.addVariable t.text D.heap.length with _ | st
        · exact untouched_id D i
        · obtain ⟨h2, h3⟩ := Vars.addVariableTo_cursor ha
          refine ⟨st, [x'], i, rfl, h2, h3, fun b n v hd => ?_⟩
          exact (Vars.addVariableTo_declares ha b n v).2 (Or.inl hd)

theorem untouched_chain {α : Type} (f : DeckState F W → α → Bool × DeckState F W) (hf : ∀ D a, Untouched D (f D a).2) :
    ∀ (l : List α) (D : DeckState F W), Untouched D (DeckState.chain f l D).2 := by
  intro l
  induction l with
  | nil => intro D; exact untouched_refl D
  | cons a l ih =>
    intro D
    rw [chain_cons]
    split
    · exact untouched_trans (hf D a) (ih _)
    · exact hf D a

end Schnek.Lemma.ParserError
