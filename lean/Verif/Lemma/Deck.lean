import Verif.Spec.Deck
import Verif.Lemma.Variables
import Verif.Lemma.Known

namespace Schnek.Lemma.Deck

open Schnek.Deck Schnek.Spec Relation DeckState

variable {F W : Type}

/-! ### nothing is removed or changes its type -/

def Keeps (D D' : DeckState F W) : Prop :=
  ∀ (v : ℕ) (x : Variable F W), D.heap[v]? = some x → ∃ x' : Variable F W, D'.heap[v]? = some x' ∧ x'.ty = x.ty ∧ x'.readOnly = x.readOnly ∧
    (x.readOnly = true → x' = x)

theorem Keeps.of_eq {D D' : DeckState F W} (h : D'.heap = D.heap) : Keeps D D' := by
  intro v x hx
  exact ⟨x, by rw [h]; exact hx, rfl, rfl, fun _ => rfl⟩

theorem Keeps.trans {D D' D'' : DeckState F W} (h : Keeps D D') (h' : Keeps D' D'') : Keeps D D'' := by
  intro v x hx
  obtain ⟨x', hx', a1, a2, a3⟩ := h v x hx
  obtain ⟨x'', hx'', b1, b2, b3⟩ := h' v x' hx'
  refine ⟨x'', hx'', by rw [b1, a1], by rw [b2, a2], fun hr => ?_⟩
  rw [b3 (by rw [a2]; exact hr), a3 hr]

theorem Keeps.append {D D' : DeckState F W} (l : List (Variable F W)) (h : D'.heap = D.heap ++ l) : Keeps D D' := by
  intro v x hx
  refine ⟨x, ?_, rfl, rfl, fun _ => rfl⟩
  rw [h, List.getElem?_append_left (List.getElem?_eq_some_iff.mp hx).1]
  exact hx

theorem chain_keeps {α : Type} (f : DeckState F W → α → Bool × DeckState F W) (hf : ∀ D a, Keeps D (f D a).2) :
    ∀ (l : List α) (D : DeckState F W), Keeps D (chain f l D).2 := by
  intro l
  induction l with
  | nil => intro D; exact Keeps.of_eq rfl
  | cons a l ih =>
    intro D
    have := hf D a
    unfold chain
    rcases h : f D a with ⟨b, D'⟩
    rw [h] at this
    cases b with
    | true => exact this.trans (ih D')
    | false => exact this

/-! ### parameters -/

theorem params_heap (H : Host F W) (c : ℕ) (specs : List (ParamSpec F)) :
    ∀ s : DeckState F W × List (String × BlockParam), ∃ l, (specs.foldl (addParameter H c) s).1.heap = s.1.heap ++ l := by
  induction specs with
  | nil => intro s; exact ⟨[], by simp⟩
  | cons p ps ih =>
    intro s
    obtain ⟨l, hl⟩ := ih (addParameter H c s p)
    exact ⟨paramVariable H p s.1.nextExt s.1.nextId :: l, by rw [List.foldl_cons, hl]; simp [addParameter]⟩

theorem getClass_snd (D : DeckState F W) (n : String) :
    ∃ l, (D.getClass n).2 = { D with classes := D.classes ++ l } ∧ (∀ p ∈ l, p.2.factory = none) ∧
      ∃ c, find (D.classes ++ l) n = some c ∧ (D.getClass n).1 = c := by
  unfold getClass
  rcases h : find D.classes n with _ | c
  · refine ⟨[(n, ⟨[], none⟩)], rfl, by simp, _, ?_, rfl⟩
    rw [Vars.find_append, h]; simp
  · refine ⟨[], by simp, by simp, c, by simpa using h, rfl⟩

theorem enterBlock_none (H : Host F W) (D : DeckState F W) (n c : String) (h : (D.getClass c).1.factory = none) :
    enterBlock H D n c = { (D.getClass c).2 with tree := (D.getClass c).2.tree.moveDown } := by
  simp only [enterBlock, h]

theorem enterBlock_some (H : Host F W) (D : DeckState F W) (n c : String) (specs : List (ParamSpec F))
    (h : (D.getClass c).1.factory = some specs) :
    enterBlock H D n c =
      { (specs.foldl (addParameter H (D.getClass c).2.store.cursor) ((D.getClass c).2, [])).1 with
        tree := (specs.foldl (addParameter H (D.getClass c).2.store.cursor) ((D.getClass c).2, [])).1.tree.addChild
          ⟨n, (D.getClass c).2.store.cursor, none, [],
            (specs.foldl (addParameter H (D.getClass c).2.store.cursor) ((D.getClass c).2, [])).2⟩ } := by
  simp only [enterBlock, h]

theorem enterBlock_heap (H : Host F W) (D : DeckState F W) (n c : String) : ∃ l, (enterBlock H D n c).heap = D.heap ++ l := by
  obtain ⟨l, h, -⟩ := getClass_snd D c
  rcases hf : (D.getClass c).1.factory with _ | specs
  · rw [enterBlock_none H D n c hf]
    exact ⟨[], by simp [h]⟩
  · rw [enterBlock_some H D n c specs hf]
    obtain ⟨m, hm⟩ := params_heap H (D.getClass c).2.store.cursor specs ((D.getClass c).2, [])
    refine ⟨m, ?_⟩
    show (specs.foldl (addParameter H (D.getClass c).2.store.cursor) ((D.getClass c).2, [])).1.heap = _
    rw [hm]
    simp only [h]

theorem createBlock_keeps (H : Host F W) (D : DeckState F W) (c n : String) : Keeps D (D.createBlock H c n).2 := by
  unfold DeckState.createBlock
  split
  · exact Keeps.of_eq rfl
  · split
    · exact Keeps.of_eq rfl
    · rename_i st _
      obtain ⟨l, hl⟩ := enterBlock_heap H { D with store := st } n c
      exact Keeps.append l hl

theorem storeOne_keeps (H : Host F W) (t : Ty) (D : DeckState F W) (d : String × Option (Expr F W)) :
    Keeps D (storeOne H t D d).2 := by
  unfold storeOne
  split
  · exact Keeps.of_eq rfl
  · split
    · exact Keeps.of_eq rfl
    · split
      · exact Keeps.of_eq rfl
      · split
        · exact Keeps.of_eq rfl
        · exact Keeps.append [_] rfl

theorem declare_keeps (H : Host F W) (D : DeckState F W) (t : Ty) (ds) : Keeps D (D.declare H t ds).2 := by
  unfold declare
  split
  · exact Keeps.of_eq rfl
  · exact chain_keeps _ (storeOne_keeps H t) _ D

theorem assign_spec {x y x' : Variable F W} (h : x.assign y = some x') :
    x.readOnly = false ∧ x.ty = y.ty ∧ x'.ty = x.ty ∧ x'.readOnly = false ∧ x'.value = y.value ∧ x'.expression = y.expression ∧
      x'.fixed = y.fixed ∧ x'.initialised = y.initialised ∧ x'.id = y.id := by
  unfold Variable.assign at h
  split at h
  · simp at h
  · rename_i ht
    split at h
    · simp at h
    · rename_i hr
      simp only [Option.some.injEq] at h
      subst h
      simp only [ne_eq, Decidable.not_not] at ht
      simp only [Bool.not_eq_true] at hr
      exact ⟨hr, ht, rfl, hr, rfl, rfl, rfl, rfl, rfl⟩

/-- what a successful assignment does -/
theorem update_true {H : Host F W} {D : DeckState F W} {n : String} {e : Grammar.Expression F}
    (h : (D.update H n e).1 = true) : ∃ (e' : Expr F W) (v : ℕ) (x y x' : Variable F W), e.build (D.env H) = some e' ∧
      D.store.getVariable D.store.cursor n = some v ∧ D.heap[v]? = some x ∧
      D.evaluate H (promoteAssign (lhsType x) e') = some y ∧ x.assign y = some x' ∧
      (D.update H n e).2 = { D with heap := D.heap.set v x', nextId := D.nextId + 1 } := by
  unfold update at h ⊢
  rcases he : e.build (D.env H) with _ | e'
  · simp [he] at h
  rcases hv : D.store.getVariable D.store.cursor n with _ | v
  · simp [he, hv] at h
  rcases hx : D.heap[v]? with _ | x
  · simp [he, hv, hx] at h
  rcases hy : D.evaluate H (promoteAssign (lhsType x) e') with _ | y
  · simp [he, hv, hx, hy] at h
  rcases hx' : x.assign y with _ | x'
  · simp [he, hv, hx, hy, hx'] at h
  exact ⟨e', v, x, y, x', rfl, rfl, hx, hy, hx', by simp [hx, hy, hx']⟩

/-- a rejected assignment changes nothing (an id may have been used) -/
theorem update_false {H : Host F W} {D : DeckState F W} {n : String} {e : Grammar.Expression F}
    (h : (D.update H n e).1 = false) : ∃ k, (k = D.nextId ∨ k = D.nextId + 1) ∧ (D.update H n e).2 = { D with nextId := k } := by
  unfold update at h ⊢
  rcases he : e.build (D.env H) with _ | e'
  · exact ⟨_, Or.inl rfl, rfl⟩
  rcases hv : D.store.getVariable D.store.cursor n with _ | v
  · exact ⟨_, Or.inl rfl, rfl⟩
  rcases hx : D.heap[v]? with _ | x
  · exact ⟨_, Or.inl rfl, by simp [hx]⟩
  rcases hy : D.evaluate H (promoteAssign (lhsType x) e') with _ | y
  · exact ⟨_, Or.inl rfl, by simp [hx, hy]⟩
  rcases hx' : x.assign y with _ | x'
  · exact ⟨_, Or.inr rfl, by simp [hx, hy, hx']⟩
  · simp [he, hv, hx, hy, hx'] at h

theorem update_keeps (H : Host F W) (D : DeckState F W) (n : String) (e) : Keeps D (D.update H n e).2 := by
  rcases hb : (D.update H n e).1 with _ | _
  · obtain ⟨k, -, h⟩ := update_false hb
    rw [h]; exact Keeps.of_eq rfl
  · obtain ⟨e', v, x, y, x', -, -, hx, -, hx', h⟩ := update_true hb
    rw [h]
    obtain ⟨h1, h2, h3, h4, -⟩ := assign_spec hx'
    intro w z hz
    by_cases hw : v = w
    · subst hw
      rw [hx, Option.some.injEq] at hz
      subst hz
      refine ⟨x', ?_, h3, by rw [h1, h4], by simp [h1]⟩
      exact List.getElem?_set_self (List.getElem?_eq_some_iff.mp hx).1
    · exact ⟨z, by rw [List.getElem?_set_ne hw]; exact hz, rfl, rfl, fun _ => rfl⟩

theorem endBlock_keeps (D : DeckState F W) : Keeps D D.endBlock.2 := by
  unfold endBlock
  split <;> exact Keeps.of_eq rfl

theorem step_keeps (H : Host F W) (D : DeckState F W) (s : Stmt F) : Keeps D (D.step H s).2 := by
  cases s with
  | decl t ds => exact declare_keeps H D t ds
  | assign n e => exact update_keeps H D n e
  | start c n => exact createBlock_keeps H D c n
  | stop => exact endBlock_keeps D

theorem run_keeps (H : Host F W) (D : DeckState F W) (deck : List (Stmt F)) : Keeps D (D.run H deck).2 :=
  chain_keeps _ (step_keeps H) deck D

theorem chain_cons {α : Type} (f : DeckState F W → α → Bool × DeckState F W) (a : α) (l : List α) (D : DeckState F W) :
    chain f (a :: l) D = if (f D a).1 then chain f l (f D a).2 else f D a := by
  rw [chain]
  rcases f D a with ⟨b, D'⟩
  cases b <;> simp

/-- running a file in two parts -/
theorem chain_append {α : Type} (f : DeckState F W → α → Bool × DeckState F W) (l m : List α) (D : DeckState F W) :
    chain f (l ++ m) D = if (chain f l D).1 then chain f m (chain f l D).2 else chain f l D := by
  induction l generalizing D with
  | nil => simp [chain]
  | cons a l ih =>
    rw [List.cons_append, chain_cons, chain_cons, ih]
    by_cases h : (f D a).1 = true
    · simp only [h, if_true]
    · simp [h]

end Schnek.Lemma.Deck
