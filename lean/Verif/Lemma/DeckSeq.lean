import Verif.Lemma.DeckBuild

namespace Schnek.Lemma.Deck

open Schnek.Deck Schnek.Deck.Grammar Schnek.Spec Relation DeckState

variable {F W : Type}

theorem storeOne_false_heap (H : Host F W) (t : Ty) (D : DeckState F W) (d : String × Option (Expr F W)) :
    ∃ l, (storeOne H t D d).2.heap = D.heap ++ l ∧ (storeOne H t D d).2.world = D.world ∧
      (storeOne H t D d).2.store.cursor = D.store.cursor := by
  unfold storeOne
  split
  · exact ⟨[], by simp, rfl, rfl⟩
  · split
    · exact ⟨[], by simp, rfl, rfl⟩
    · rename_i x _
      split
      · exact ⟨[], by simp, rfl, rfl⟩
      · split
        · exact ⟨[], by simp, rfl, rfl⟩
        · rename_i st hst
          exact ⟨[x], rfl, rfl, (Vars.addVariableTo_cursor hst).1⟩

theorem chain_heap (H : Host F W) (t : Ty) (l : List (String × Option (Expr F W))) :
    ∀ D : DeckState F W, ∃ m, (chain (storeOne H t) l D).2.heap = D.heap ++ m ∧ (chain (storeOne H t) l D).2.world = D.world ∧
      (chain (storeOne H t) l D).2.store.cursor = D.store.cursor := by
  induction l with
  | nil => intro D; exact ⟨[], by simp [chain], rfl, rfl⟩
  | cons d l ih =>
    intro D
    obtain ⟨m, h1, h2, h3⟩ := storeOne_false_heap H t D d
    rw [chain_cons]
    split
    · obtain ⟨m', g1, g2, g3⟩ := ih (storeOne H t D d).2
      exact ⟨m ++ m', by rw [g1, h1, List.append_assoc], by rw [g2, h2], by rw [g3, h3]⟩
    · exact ⟨m, h1, h2, h3⟩

theorem declare_heap (H : Host F W) (D : DeckState F W) (t : Ty) (ds) : ∃ m, (D.declare H t ds).2.heap = D.heap ++ m := by
  unfold declare
  split
  · exact ⟨[], by simp⟩
  · rename_i l _
    obtain ⟨m, h, -⟩ := chain_heap H t l.reverse D
    exact ⟨m, h⟩

theorem createBlock_heap (H : Host F W) (D : DeckState F W) (c n : String) : ∃ m, (D.createBlock H c n).2.heap = D.heap ++ m := by
  unfold DeckState.createBlock
  split
  · exact ⟨[], by simp⟩
  · split
    · exact ⟨[], by simp⟩
    · rename_i st _
      exact enterBlock_heap H { D with store := st } n c

/-- statements leave alone what they do not assign -/
theorem step_frame (H : Host F W) (D : DeckState F W) (h : Vars.Inv D.store) (s : Stmt F) (v : ℕ) (hs : ¬ Assigns D s v)
    (x : Variable F W) (hx : D.heap[v]? = some x) : (D.step H s).2.heap[v]? = some x := by
  have happ : ∀ m, (D.heap ++ m)[v]? = some x := by
    intro m
    rw [List.getElem?_append_left (List.getElem?_eq_some_iff.mp hx).1]
    exact hx
  cases s with
  | decl t ds =>
    obtain ⟨m, hm⟩ := declare_heap H D t ds
    show (D.declare H t ds).2.heap[v]? = some x
    rw [hm]; exact happ m
  | start c n =>
    obtain ⟨m, hm⟩ := createBlock_heap H D c n
    show (D.createBlock H c n).2.heap[v]? = some x
    rw [hm]; exact happ m
  | stop =>
    show D.endBlock.2.heap[v]? = some x
    unfold endBlock
    split <;> exact hx
  | assign n e =>
    show (D.update H n e).2.heap[v]? = some x
    rcases hb : (D.update H n e).1 with _ | _
    · obtain ⟨k, -, h'⟩ := update_false hb
      rw [h']; exact hx
    · obtain ⟨e', w, y, z, y', -, hw, -, -, -, h'⟩ := update_true hb
      rw [h']
      show (D.heap.set w y')[v]? = some x
      by_cases hwv : w = v
      · exfalso
        apply hs
        have hwr := written_splitName ':' n
        exact ⟨n, e, _, rfl, hwr, (Vars.getVariable_iff h _ h.cursor _ n hwr v).mp (by rw [hw, hwv])⟩
      · rw [List.getElem?_set_ne hwv]; exact hx

theorem run_frame (H : Host F W) (D : DeckState F W) (h : DInv D) (rest : List (Stmt F)) (v : ℕ) (x : Variable F W)
    (hx : D.heap[v]? = some x)
    (hno : ∀ pre s post, rest = pre ++ s :: post → (D.run H pre).1 = true → ¬ Assigns (D.run H pre).2 s v) :
    (D.run H rest).2.heap[v]? = some x := by
  unfold run
  induction rest generalizing D with
  | nil => exact hx
  | cons s ss ih =>
    have h0 : ¬ Assigns D s v := hno [] s ss rfl rfl
    have hstep := step_frame H D h.store s v h0 x hx
    rw [chain_cons]
    split
    · rename_i hok
      refine ih _ (dinv_step H D s h) hstep ?_
      intro pre s' post hp hpre
      have := hno (s :: pre) s' post (by rw [hp]; rfl)
      unfold run at this hpre ⊢
      rw [chain_cons, if_pos hok] at this
      exact this hpre
    · exact hstep

/-- evaluating at a later time -/
theorem evaluate_later {H : Host F W} {D₀ D : DeckState F W} {m : List (Variable F W)} (hh : D.heap = D₀.heap ++ m)
    (hw : D.world = D₀.world) {e : Expr F W} (he : Built (· < D₀.heap.length) e) :
    e.isConstant D.state = e.isConstant D₀.state ∧ e.eval H.ops D.state = e.eval H.ops D₀.state := by
  have hget : ∀ u, u < D₀.heap.length → D.heap[u]? = D₀.heap[u]? := by
    intro u hu; rw [hh, List.getElem?_append_left hu]
  constructor
  · refine isConstant_built _ _ e (he.mono ?_)
    intro u hu
    simp only [state, hget u hu]
  · refine eval_built H.ops _ _ hw e (he.mono ?_)
    intro u hu
    simp only [state, hget u hu]

theorem storeOne_true {H : Host F W} {t : Ty} {D : DeckState F W} {d : String × Option (Expr F W)}
    (h : (storeOne H t D d).1 = true) : ∃ e x st, d.2 = some e ∧ D.evaluate H e = some x ∧ x.ty = t ∧
      D.store.addVariable d.1 D.heap.length = some st ∧
      (storeOne H t D d).2 = { D with store := st, heap := D.heap ++ [x], nextId := D.nextId + 1 } := by
  unfold storeOne at h ⊢
  rcases hd : d.2 with _ | e
  · simp [hd] at h
  rcases hx : D.evaluate H e with _ | x
  · simp [hd, hx] at h
  by_cases ht : x.ty = t
  · rcases hst : D.store.addVariable d.1 D.heap.length with _ | st
    · simp [hd, hx, ht, hst] at h
    · exact ⟨e, x, st, rfl, hx, ht, rfl, by simp [hx, ht]⟩
  · simp [hd, hx, ht] at h

theorem evaluate_spec {H : Host F W} {D : DeckState F W} {e : Expr F W} {x : Variable F W} (h : D.evaluate H e = some x) :
    (e.isConstant D.state = true → x.fixed = true ∧ e.eval H.ops D.state = some x.value) ∧
    (e.isConstant D.state = false → x.fixed = false ∧ x.expression = some e) := by
  unfold evaluate at h
  by_cases hc : e.isConstant D.state = true
  · rw [if_pos hc, Option.map_eq_some_iff] at h
    obtain ⟨v, hv, rfl⟩ := h
    exact ⟨fun _ => ⟨rfl, hv⟩, fun h => by rw [hc] at h; simp at h⟩
  · rw [if_neg hc, Option.some.injEq] at h
    subst h
    exact ⟨fun h => absurd h hc, fun _ => ⟨rfl, rfl⟩⟩

theorem chain_declares (H : Host F W) (t : Ty) (l : List (String × Option (Expr F W))) :
    ∀ D : DeckState F W, ∀ b n v, Declares D.store b n v → Declares (chain (storeOne H t) l D).2.store b n v := by
  induction l with
  | nil => intro D b n v h; exact h
  | cons d l ih =>
    intro D b n v h
    rw [chain_cons]
    by_cases hok : (storeOne H t D d).1 = true
    · rw [if_pos hok]
      apply ih
      obtain ⟨e, x, st, -, -, -, hst, heq⟩ := storeOne_true hok
      rw [heq]
      exact (Vars.addVariableTo_declares hst b n v).mpr (Or.inl h)
    · rw [if_neg hok]
      unfold storeOne
      split
      · exact h
      · split
        · exact h
        · split
          · exact h
          · split
            · exact h
            · rename_i st hst
              exact (Vars.addVariableTo_declares hst b n v).mpr (Or.inl h)

theorem chain_store (H : Host F W) (t : Ty) (l : List (String × Option (Expr F W))) (D₀ : DeckState F W)
    (hl : ∀ n e, (n, some e) ∈ l → Built (· < D₀.heap.length) e) :
    ∀ (D : DeckState F W), DInv D → (∃ m, D.heap = D₀.heap ++ m) → D.world = D₀.world →
      (chain (storeOne H t) l D).1 = true → ∀ n oe, (n, oe) ∈ l → ∃ e v x, oe = some e ∧
        Declares (chain (storeOne H t) l D).2.store D.store.cursor n v ∧ (chain (storeOne H t) l D).2.heap[v]? = some x ∧
        D₀.heap.length ≤ v ∧ x.ty = t ∧ e.ty = t ∧ x.readOnly = false ∧ x.initialised = true ∧
        (e.isConstant D₀.state = true → x.fixed = true ∧ e.eval H.ops D₀.state = some x.value) ∧
        (e.isConstant D₀.state = false → x.fixed = false ∧ x.expression = some e) := by
  induction l with
  | nil => intro D _ _ _ _ n oe h; simp at h
  | cons d l ih =>
    intro D hD hm hw hok n oe hmem
    obtain ⟨m, hm⟩ := hm
    rw [chain_cons] at hok ⊢
    by_cases h1 : (storeOne H t D d).1 = true
    · rw [if_pos h1] at hok ⊢
      obtain ⟨e, x, st, he, hx, ht, hst, heq⟩ := storeOne_true h1
      have hcur : (storeOne H t D d).2.store.cursor = D.store.cursor := by
        rw [heq]; exact (Vars.addVariableTo_cursor hst).1
      have hheap : (storeOne H t D d).2.heap = D.heap ++ [x] := by rw [heq]
      rcases List.mem_cons.mp hmem with hnd | hmem
      · subst hnd
        simp only at he
        subst he
        obtain ⟨hev1, hev2⟩ := evaluate_spec hx
        obtain ⟨hl1, hl2⟩ := evaluate_later (H := H) hm hw (hl n e List.mem_cons_self)
        obtain ⟨-, -, hty, hro, hini⟩ := evaluate_typed hx
        refine ⟨e, D.heap.length, x, rfl, ?_, ?_, ?_, ht, by rw [← hty, ht], hro, hini, ?_, ?_⟩
        · apply chain_declares
          rw [heq]
          exact (Vars.addVariableTo_declares hst _ _ _).mpr (Or.inr ⟨rfl, hD.store.cursor, rfl, rfl⟩)
        · obtain ⟨m', hm', -⟩ := chain_heap H t l (storeOne H t D (n, some e)).2
          rw [hm', hheap, List.append_assoc, List.getElem?_append_right (le_refl _)]
          simp
        · rw [hm]; simp
        · rw [← hl1, ← hl2]; exact hev1
        · rw [← hl1]; exact hev2
      · have := ih (fun n e h => hl n e (List.mem_cons_of_mem _ h)) (storeOne H t D d).2 (dinv_storeOne H t D d hD)
          ⟨m ++ [x], by rw [hheap, hm, List.append_assoc]⟩ (by rw [heq]; exact hw) hok n oe hmem
        rw [hcur] at this
        exact this
    · rw [if_neg h1] at hok
      exact absurd hok h1

theorem env_lookup {H : Host F W} {D : DeckState F W} {n : String} {p : Var × Ty} (h : (D.env H).lookup n = some p) :
    D.store.getVariable D.store.cursor n = some p.1 ∧ ∃ x, D.heap[p.1]? = some x ∧ x.ty = p.2 := by
  simp only [env, Option.bind_eq_some_iff, Option.map_eq_some_iff] at h
  obtain ⟨v, hv, x, hx, rfl⟩ := h
  exact ⟨hv, x, hx, rfl⟩

theorem build_lt {H : Host F W} {D : DeckState F W} {g : Grammar.Expression F} {e : Expr F W} (h : g.build (D.env H) = some e) :
    Built (· < D.heap.length) e := by
  refine build_expression (D.env H) ?_ g e h
  intro n p hp
  obtain ⟨-, x, hx, -⟩ := env_lookup hp
  exact (List.getElem?_eq_some_iff.mp hx).1

theorem buildAll_spec {H : Host F W} {D : DeckState F W} : ∀ (ds : List (String × Option (Grammar.Expression F))) l,
    buildAll (D.env H) ds = some l → (∀ n e, (n, some e) ∈ l → Built (· < D.heap.length) e) ∧
      ∀ n og, (n, og) ∈ ds → ∃ oe, (n, oe) ∈ l ∧ ∀ g, og = some g → ∃ e, oe = some e ∧ g.build (D.env H) = some e
  | [], l, h => by
      simp only [buildAll, Option.some.injEq] at h
      subst h
      simp
  | (n, none) :: ds, l, h => by
      simp only [buildAll, Option.map_eq_some_iff] at h
      obtain ⟨l', hl', rfl⟩ := h
      obtain ⟨h1, h2⟩ := buildAll_spec ds l' hl'
      constructor
      · intro n' e' hm
        rcases List.mem_cons.mp hm with hm | hm
        · simp at hm
        · exact h1 n' e' hm
      · intro n' og hm
        rcases List.mem_cons.mp hm with hm | hm
        · simp only [Prod.mk.injEq] at hm
          exact ⟨none, by rw [hm.1]; exact List.mem_cons_self, fun g hg => by rw [hm.2] at hg; simp at hg⟩
        · obtain ⟨oe, a, b⟩ := h2 n' og hm
          exact ⟨oe, List.mem_cons_of_mem _ a, b⟩
  | (n, some g) :: ds, l, h => by
      simp only [buildAll, Option.bind_eq_some_iff, Option.map_eq_some_iff] at h
      obtain ⟨x, hx, l', hl', rfl⟩ := h
      obtain ⟨h1, h2⟩ := buildAll_spec ds l' hl'
      constructor
      · intro n' e' hm
        rcases List.mem_cons.mp hm with hm | hm
        · simp only [Prod.mk.injEq, Option.some.injEq] at hm
          rw [hm.2]; exact build_lt hx
        · exact h1 n' e' hm
      · intro n' og hm
        rcases List.mem_cons.mp hm with hm | hm
        · simp only [Prod.mk.injEq] at hm
          refine ⟨some x, by rw [hm.1]; exact List.mem_cons_self, fun g' hg' => ?_⟩
          rw [hm.2, Option.some.injEq] at hg'
          exact ⟨x, rfl, by rw [← hg']; exact hx⟩
        · obtain ⟨oe, a, b⟩ := h2 n' og hm
          exact ⟨oe, List.mem_cons_of_mem _ a, b⟩

/-- an accepted list of declarations -/
theorem declare_spec (H : Host F W) (D : DeckState F W) (hD : DInv D) (t : Ty) (ds : List (String × Option (Grammar.Expression F)))
    (hok : (D.declare H t ds).1 = true) (n : String) (og) (hmem : (n, og) ∈ ds) :
    ∃ g e v x, og = some g ∧ g.build (D.env H) = some e ∧ Declares (D.declare H t ds).2.store D.store.cursor n v ∧
      (D.declare H t ds).2.heap[v]? = some x ∧ D.heap.length ≤ v ∧ x.ty = t ∧ e.ty = t ∧ x.readOnly = false ∧ x.initialised = true ∧
      (e.isConstant D.state = true → x.fixed = true ∧ e.eval H.ops D.state = some x.value) ∧
      (e.isConstant D.state = false → x.fixed = false ∧ x.expression = some e) := by
  unfold declare at hok ⊢
  rcases hl : buildAll (D.env H) ds with _ | l
  · simp [hl] at hok
  · simp only [hl] at hok ⊢
    obtain ⟨h1, h2⟩ := buildAll_spec ds l hl
    obtain ⟨oe, hoe, hg⟩ := h2 n og hmem
    obtain ⟨e, v, x, rfl, a1, a2, a3, a4, a5, a6, a7, a8, a9⟩ := chain_store H t l.reverse D (fun n e h => h1 n e (List.mem_reverse.mp h)) D hD
      ⟨[], by simp⟩ rfl hok n oe (List.mem_reverse.mpr hoe)
    rcases og with _ | g
    · exfalso
      have : ∀ (ds : List (String × Option (Grammar.Expression F))) l, buildAll (D.env H) ds = some l → (n, none) ∈ ds → (n, none) ∈ l := by
        intro ds
        induction ds with
        | nil => intro l _ h; simp at h
        | cons d ds ih =>
          rcases d with ⟨m, _ | g⟩
          · intro l h hm
            simp only [buildAll, Option.map_eq_some_iff] at h
            obtain ⟨l', hl', rfl⟩ := h
            rcases List.mem_cons.mp hm with hm | hm
            · simp only [Prod.mk.injEq, and_true] at hm; rw [hm]; exact List.mem_cons_self
            · exact List.mem_cons_of_mem _ (ih l' hl' hm)
          · intro l h hm
            simp only [buildAll, Option.bind_eq_some_iff, Option.map_eq_some_iff] at h
            obtain ⟨x, hx, l', hl', rfl⟩ := h
            rcases List.mem_cons.mp hm with hm | hm
            · simp at hm
            · exact List.mem_cons_of_mem _ (ih l' hl' hm)
      obtain ⟨e', -, -, he', -⟩ := chain_store H t l.reverse D (fun n e h => h1 n e (List.mem_reverse.mp h)) D hD
        ⟨[], by simp⟩ rfl hok n none (List.mem_reverse.mpr (this ds l hl hmem))
      simp at he'
    · obtain ⟨e', he', hb⟩ := hg g rfl
      simp only [Option.some.injEq] at he'
      subst he'
      exact ⟨g, e, v, x, rfl, hb, a1, a2, a3, a4, a5, a6, a7, a8, a9⟩

end Schnek.Lemma.Deck
