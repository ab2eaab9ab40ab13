import Verif.Spec.ParametersGroup
import Verif.Lemma.DeckSeq
import Verif.Lemma.DeckFinish

/-!
# Lemmas about groups of parameters
-/

namespace Schnek.Lemma.Deck

open Schnek.Deck Schnek.Spec DeckState

variable {F W : Type}

theorem mem_insert (s : IdSet) (i j : ℤ) : j ∈ (s.insert i).elements ↔ j ∈ s.elements ∨ j = i := by
  unfold IdSet.insert
  split
  · rename_i h
    constructor
    · exact Or.inl
    · rintro (h' | rfl)
      · exact h'
      · exact h
  · show j ∈ s.elements.takeWhile (· < i) ++ i :: s.elements.dropWhile (· < i) ↔ _
    rw [List.mem_append, List.mem_cons]
    conv_rhs => rw [← List.takeWhile_append_dropWhile (p := (· < i)) (l := s.elements), List.mem_append]
    tauto

theorem mem_group (D : DeckState F W) (vs : List Var) : ∀ (s : IdSet) (j : ℤ),
    j ∈ (D.addToGroup s vs).elements ↔ j ∈ s.elements ∨ ∃ v ∈ vs, j = D.idOf v := by
  induction vs with
  | nil => intro s j; simp [addToGroup]
  | cons v vs ih =>
    intro s j
    have : D.addToGroup s (v :: vs) = D.addToGroup (s.insert (D.idOf v)) vs := rfl
    rw [this, ih, mem_insert]
    simp only [List.mem_cons, exists_eq_or_imp]
    tauto

theorem assigns_id (H : Host F W) (D : DeckState F W) (h : DInv D) (s : Stmt F) (v : ℕ) (hs : Assigns D s v)
    (hok : (D.step H s).1 = true) : ∃ x, (D.step H s).2.heap[v]? = some x ∧ x.id = D.nextId := by
  obtain ⟨n, e, path, rfl, hw, hr⟩ := hs
  have hok : (D.update H n e).1 = true := hok
  obtain ⟨e', w, x, y, x', -, hw', hx, hy, hx', h'⟩ := update_true hok
  rw [(Lemma.Vars.getVariable_iff h.store _ h.store.cursor path n hw v).mpr hr, Option.some.injEq] at hw'
  subst hw'
  refine ⟨x', ?_, ?_⟩
  · show (D.update H n e).2.heap[v]? = _
    rw [h']
    exact List.getElem?_set_self (List.getElem?_eq_some_iff.mp hx).1
  · obtain ⟨-, -, -, -, -, -, -, -, a9⟩ := assign_spec hx'
    obtain ⟨-, b2, -⟩ := evaluate_typed hy
    rw [a9, b2]

theorem rejected_heap (H : Host F W) (D : DeckState F W) (h : DInv D) (s : Stmt F) (hok : (D.step H s).1 = false) (v : ℕ)
    (x : Variable F W) (hx : D.heap[v]? = some x) : (D.step H s).2.heap[v]? = some x := by
  by_cases hs : Assigns D s v
  · obtain ⟨n, e, path, rfl, -⟩ := hs
    obtain ⟨k, -, h'⟩ := update_false (show (D.update H n e).1 = false from hok)
    show (D.update H n e).2.heap[v]? = _
    rw [h']; exact hx
  · exact step_frame H D h.store s v hs x hx

/-- `D'` comes later than `D`: an id is the old one, or one that was not in use -/
structure NewIds (D D' : DeckState F W) : Prop where
  next : D.nextId ≤ D'.nextId
  ids : ∀ (v : ℕ) (x' : Variable F W), D'.heap[v]? = some x' → (∃ x : Variable F W, D.heap[v]? = some x ∧ x'.id = x.id) ∨ D.nextId ≤ x'.id

theorem NewIds.of_eq {D D' : DeckState F W} (h : D'.heap = D.heap) (hn : D.nextId ≤ D'.nextId) : NewIds D D' :=
  ⟨hn, fun v x' hx => Or.inl ⟨x', by rw [← h]; exact hx, rfl⟩⟩

theorem NewIds.trans {D D' D'' : DeckState F W} (h : NewIds D D') (h' : NewIds D' D'') : NewIds D D'' := by
  refine ⟨Int.le_trans h.next h'.next, ?_⟩
  intro v x'' hx
  rcases h'.ids v x'' hx with ⟨x', hx', e⟩ | h2
  · rcases h.ids v x' hx' with ⟨x, hx, e'⟩ | h3
    · exact Or.inl ⟨x, hx, by rw [e, e']⟩
    · exact Or.inr (by rw [e]; exact h3)
  · exact Or.inr (Int.le_trans h.next h2)

theorem NewIds.push {D D' : DeckState F W} {x : Variable F W} (h : D'.heap = D.heap ++ [x]) (hx : x.id = D.nextId)
    (hn : D.nextId ≤ D'.nextId) : NewIds D D' := by
  refine ⟨hn, ?_⟩
  intro v x' hx'
  rw [h] at hx'
  rcases Nat.lt_or_ge v D.heap.length with hv | hv
  · rw [List.getElem?_append_left hv] at hx'
    exact Or.inl ⟨x', hx', rfl⟩
  · rw [List.getElem?_append_right hv] at hx'
    have := List.mem_of_getElem? hx'
    rw [List.mem_singleton] at this
    exact Or.inr (by rw [this, hx])

theorem newIds_chain {α : Type} (f : DeckState F W → α → Bool × DeckState F W) (hf : ∀ D a, NewIds D (f D a).2) :
    ∀ (l : List α) (D : DeckState F W), NewIds D (chain f l D).2 := by
  intro l
  induction l with
  | nil => intro D; exact .of_eq rfl (Int.le_refl _)
  | cons a l ih =>
    intro D
    rw [chain_cons]
    split
    · exact (hf D a).trans (ih _)
    · exact hf D a

theorem newIds_storeOne (H : Host F W) (t : Ty) (D : DeckState F W) (d : String × Option (Expr F W)) :
    NewIds D (storeOne H t D d).2 := by
  have h1 : D.nextId ≤ D.nextId + 1 := by omega
  unfold storeOne
  split
  · exact .of_eq rfl (Int.le_refl _)
  · split
    · exact .of_eq rfl (Int.le_refl _)
    · rename_i x hx
      split
      · exact .of_eq rfl h1
      · split
        · exact .of_eq rfl h1
        · exact .push (x := x) rfl (evaluate_typed hx).2.1 h1

theorem newIds_params (H : Host F W) (c : ℕ) (specs : List (ParamSpec F)) :
    ∀ s : DeckState F W × List (String × BlockParam), NewIds s.1 (specs.foldl (addParameter H c) s).1 := by
  induction specs with
  | nil => intro s; exact .of_eq rfl (Int.le_refl _)
  | cons q qs ih =>
    intro s
    have h1 : NewIds s.1 (addParameter H c s q).1 := by
      refine .push (x := paramVariable H q s.1.nextExt s.1.nextId) rfl ?_ (by show _ ≤ s.1.nextId + 1; omega)
      unfold paramVariable
      repeat' (first | split | rfl)
    exact h1.trans (ih _)

theorem newIds_step (H : Host F W) (D : DeckState F W) (s : Stmt F) : NewIds D (D.step H s).2 := by
  cases s with
  | decl t ds =>
    show NewIds D (D.declare H t ds).2
    unfold declare
    split
    · exact .of_eq rfl (Int.le_refl _)
    · exact newIds_chain _ (newIds_storeOne H t) _ D
  | assign n e =>
    show NewIds D (D.update H n e).2
    rcases hb : (D.update H n e).1 with _ | _
    · obtain ⟨k, hk, h'⟩ := update_false hb
      rw [h']
      exact .of_eq rfl (by show _ ≤ k; omega)
    · obtain ⟨e', w, x, y, x', -, hw, hx, hy, hx', h'⟩ := update_true hb
      rw [h']
      refine ⟨by show _ ≤ D.nextId + 1; omega, ?_⟩
      intro v z hz
      by_cases hvw : w = v
      · subst hvw
        have hz : (D.heap.set w x')[w]? = some z := hz
        rw [List.getElem?_set_self (List.getElem?_eq_some_iff.mp hx).1, Option.some.injEq] at hz
        subst hz
        obtain ⟨-, -, -, -, -, -, -, -, a9⟩ := assign_spec hx'
        obtain ⟨-, b2, -⟩ := evaluate_typed hy
        exact Or.inr (by rw [a9, b2])
      · have hz : (D.heap.set w x')[v]? = some z := hz
        rw [List.getElem?_set_ne hvw] at hz
        exact Or.inl ⟨z, hz, rfl⟩
  | start c n =>
    show NewIds D (D.createBlock H c n).2
    unfold DeckState.createBlock
    split
    · exact .of_eq rfl (Int.le_refl _)
    · split
      · exact .of_eq rfl (Int.le_refl _)
      · rename_i st _
        generalize hE : ({ D with store := st } : DeckState F W) = E
        have h0 : NewIds D E := .of_eq (by rw [← hE]) (by rw [← hE])
        show NewIds D (enterBlock H E n c)
        obtain ⟨l, hl, -⟩ := getClass_snd E c
        have h1 : NewIds E (E.getClass c).2 := .of_eq (by rw [hl]) (by rw [hl])
        rcases hf : (E.getClass c).1.factory with _ | specs
        · rw [enterBlock_none H E n c hf]
          exact (h0.trans h1).trans (.of_eq rfl (Int.le_refl _))
        · rw [enterBlock_some H E n c specs hf]
          exact ((h0.trans h1).trans (newIds_params H _ specs ((E.getClass c).2, []))).trans (.of_eq rfl (Int.le_refl _))
  | stop =>
    show NewIds D D.endBlock.2
    unfold endBlock
    split <;> exact .of_eq rfl (Int.le_refl _)

theorem newIds_run (H : Host F W) (D : DeckState F W) (deck : List (Stmt F)) : NewIds D (D.run H deck).2 :=
  newIds_chain _ (newIds_step H) deck D

/-- ids tell whether a variable has been assigned to -/
theorem id_iff (H : Host F W) (rest : List (Stmt F)) : ∀ (D : DeckState F W), DInv D → ∀ (v : ℕ) (x : Variable F W), D.heap[v]? = some x →
    ∃ x', (D.run H rest).2.heap[v]? = some x' ∧ (x'.id = x.id ↔ ¬ AssignedIn H D rest v) ∧ (x'.id = x.id ∨ D.nextId ≤ x'.id) := by
  induction rest with
  | nil =>
    intro D h v x hx
    refine ⟨x, hx, ⟨fun _ => ?_, fun _ => rfl⟩, Or.inl rfl⟩
    rintro ⟨pre, s, post, h, -⟩
    simp at h
  | cons s ss ih =>
    intro D h v x hx
    have hrun : ∀ l, D.run H (s :: l) = if (D.step H s).1 = true then (D.step H s).2.run H l else D.step H s := by
      intro l
      rcases hb : (D.step H s).1 with _ | _
      · rw [if_neg (by simp)]
        unfold run
        rw [chain_cons, if_neg (by rw [hb]; simp)]
      · rw [if_pos rfl]
        unfold run
        rw [chain_cons, if_pos hb]
    rcases hb : (D.step H s).1 with _ | _
    · refine ⟨x, ?_, ⟨fun _ => ?_, fun _ => rfl⟩, Or.inl rfl⟩
      · rw [hrun, if_neg (by rw [hb]; simp)]
        exact rejected_heap H D h s hb v x hx
      · rintro ⟨pre, s', post, e, hok, -⟩
        cases pre with
        | nil =>
          rw [List.nil_append, List.cons.injEq] at e
          rw [← e.1, List.nil_append, hrun, if_neg (by rw [hb]; simp), hb] at hok
          cases hok
        | cons s'' pre =>
          rw [List.cons_append, List.cons.injEq] at e
          rw [← e.1, List.cons_append, hrun, if_neg (by rw [hb]; simp), hb] at hok
          cases hok
    · have hstep : ∀ l, D.run H (s :: l) = (D.step H s).2.run H l := fun l => by rw [hrun, if_pos hb]
      have hass : AssignedIn H D (s :: ss) v ↔ Assigns D s v ∨ AssignedIn H (D.step H s).2 ss v := by
        constructor
        · rintro ⟨pre, s', post, e, hok, ha⟩
          cases pre with
          | nil =>
            rw [List.nil_append, List.cons.injEq] at e
            rw [← e.1] at ha
            exact Or.inl ha
          | cons s'' pre =>
            rw [List.cons_append, List.cons.injEq] at e
            obtain ⟨rfl, e⟩ := e
            rw [List.cons_append, hstep] at hok
            rw [hstep] at ha
            exact Or.inr ⟨pre, s', post, e, hok, ha⟩
        · rintro (ha | ⟨pre, s', post, e, hok, ha⟩)
          · exact ⟨[], s, ss, rfl, by rw [List.nil_append, hstep]; rfl, ha⟩
          · exact ⟨s :: pre, s', post, by rw [e]; rfl, by rw [List.cons_append, hstep]; exact hok, by rw [hstep]; exact ha⟩
      rw [hstep, hass]
      by_cases ha : Assigns D s v
      · obtain ⟨x1, hx1, hid1⟩ := assigns_id H D h s v ha hb
        obtain ⟨x', hx', -, i2⟩ := ih _ (dinv_step H D s h) v x1 hx1
        have hge : D.nextId ≤ x'.id := by
          have := (newIds_step H D s).next
          rcases i2 with i2 | i2 <;> omega
        have := h.lt v x hx
        exact ⟨x', hx', ⟨fun e => by omega, fun hn => absurd (Or.inl ha) hn⟩, Or.inr hge⟩
      · obtain ⟨x', hx', i1, i2⟩ := ih _ (dinv_step H D s h) v x (step_frame H D h.store s v ha x hx)
        refine ⟨x', hx', ?_, ?_⟩
        · rw [i1]
          simp [ha]
        · have := (newIds_step H D s).next
          rcases i2 with i2 | i2
          · exact Or.inl i2
          · exact Or.inr (by omega)

end Schnek.Lemma.Deck
