import Verif.Model.FieldTools
import Verif.Props.Storage
import Verif.Props.Dependencies

/-!
# Filling fields

C50, C72
-/

namespace Schnek.Props

open Spec Deck Deck.DepMap FieldTools Lemma.Dep Relation

section

variable {K W : Type} [Field K] {n : ℕ}

/-- The external values when the coordinates are those of cell `p`. -/
def ExtAt (f : FieldShape K (n + 1)) (slot : Fin (n + 1) → ℕ) (p : Idx (n + 1)) (ext ext' : ℕ → Val K) (x : ℕ) : Prop :=
  (∀ i, x = slot i → ext' x = .float (f.indexToPosition i (p i))) ∧ ((∀ i, x ≠ slot i) → ext' x = ext x)

/-- A state in which the coordinates are those of cell `p`, everything else the program provides is as in `σ`, and `d` and what goes
into it hold the values of their definitions. -/
structure EvaluatedAt (O : FloatOps K) (expr : Var → Expr K W) (dummy : Var) (t : Tree) (f : FieldShape K (n + 1))
    (slot : Fin (n + 1) → ℕ) (σ : State K W) (d : Var) (p : Idx (n + 1)) (τ : State K W) : Prop where
  id : τ.id = σ.id
  fixed : τ.fixed = σ.fixed
  world : τ.world = σ.world
  ext : ∀ v, Node σ dummy t v → ∀ y ∈ externals (expr v), ExtAt f slot p σ.ext τ.ext y
  others : ∀ v, ¬ Node σ dummy t v → τ.value v = σ.value v
  current : ∀ u, Upstream σ expr dummy t u d → Current O expr τ u

/-- The value of variable `d` at cell `p`: there is a state in which everything has been evaluated for that cell, and `d` has that
value in all of them. -/
def ValueAt (O : FloatOps K) (expr : Var → Expr K W) (dummy : Var) (t : Tree) (f : FieldShape K (n + 1)) (slot : Fin (n + 1) → ℕ)
    (σ : State K W) (d : Var) (p : Idx (n + 1)) (x : Val K) : Prop :=
  (∃ τ, EvaluatedAt O expr dummy t f slot σ d p τ) ∧ ∀ τ, EvaluatedAt O expr dummy t f slot σ d p τ → τ.value d = x

theorem setCoords_spec (f : FieldShape K (n + 1)) (slot : Fin (n + 1) → ℕ) (hinj : Function.Injective slot)
    (p : Idx (n + 1)) (σ : State K W) :
    (setCoords f slot p σ).id = σ.id ∧ (setCoords f slot p σ).fixed = σ.fixed ∧ (setCoords f slot p σ).world = σ.world ∧
      (setCoords f slot p σ).value = σ.value ∧ ∀ x, ExtAt f slot p σ.ext (setCoords f slot p σ).ext x := by
  have key : ∀ (l : List (Fin (n + 1))) (σ : State K W), l.Nodup →
      let σ' := l.foldl (fun (σ : State K W) i => { σ with ext := Function.update σ.ext (slot i) (.float (f.indexToPosition i (p i))) }) σ
      σ'.id = σ.id ∧ σ'.fixed = σ.fixed ∧ σ'.world = σ.world ∧ σ'.value = σ.value ∧
        (∀ i ∈ l, σ'.ext (slot i) = .float (f.indexToPosition i (p i))) ∧ ∀ x, (∀ i ∈ l, x ≠ slot i) → σ'.ext x = σ.ext x := by
    intro l
    induction l with
    | nil => intro σ _; exact ⟨rfl, rfl, rfl, rfl, by simp, fun _ _ => rfl⟩
    | cons a l ih =>
      intro σ hnd
      rw [List.nodup_cons] at hnd
      obtain ⟨h1, h2, h3, h4, h5, h6⟩ := ih { σ with ext := Function.update σ.ext (slot a) (.float (f.indexToPosition a (p a))) } hnd.2
      refine ⟨h1, h2, h3, h4, fun i hi => ?_, fun x hx => ?_⟩
      · rcases List.mem_cons.mp hi with rfl | hi
        · rw [List.foldl_cons, h6 _ fun j hj hc => hnd.1 (by rw [hinj hc]; exact hj)]
          simp
        · exact h5 i hi
      · rw [List.foldl_cons, h6 x fun i hi => hx i (by simp [hi])]
        simp only
        rw [Function.update_of_ne (hx a (by simp))]
  obtain ⟨h1, h2, h3, h4, h5, h6⟩ := key (List.finRange (n + 1)) σ (List.nodup_finRange _)
  refine ⟨h1, h2, h3, h4, fun x => ⟨?_, fun hx => h6 x fun i _ => hx i⟩⟩
  rintro i rfl
  exact h5 i (List.mem_finRange i)

/-- the loop, started in a state that agrees with `σ₀` in everything that is not computed -/
private theorem fill_spec (O : FloatOps K) (expr : Var → Expr K W) (D : DepMap) (dummy : Var) (t : Tree) (N : ℕ)
    (f : FieldShape K (n + 1)) (slot : Fin (n + 1) → ℕ) (value : ℕ) (hinj : Function.Injective slot) (σ₀ : State K W) (U₀ : Updater)
    (hc : ∀ v, Node σ₀ dummy t v → v ∉ U₀.independent → ∀ i, slot i ∉ externals (expr v))
    (d : Var) (hd : d ∈ U₀.dependent) (hq : ∃ q ∈ U₀.params, q.var = d ∧ q.target = value ∧ q.readOnly = false)
    (hac : ∀ u, Upstream σ₀ expr dummy t u d → ¬ TransGen (Edge σ₀ expr dummy t) u u) :
    ∀ (l : List (Idx (n + 1))) (s s' : FillState K W n), History O expr D dummy t s.updater s.vars →
      s.updater.independent = U₀.independent → s.updater.dependent = U₀.dependent → s.updater.params = U₀.params →
      s.vars.id = σ₀.id → s.vars.fixed = σ₀.fixed → s.vars.world = σ₀.world →
      (∀ v, Node σ₀ dummy t v → ∀ y ∈ externals (expr v), (∀ i, y ≠ slot i) → s.vars.ext y = σ₀.ext y) →
      (∀ v, ¬ Node σ₀ dummy t v → s.vars.value v = σ₀.value v) →
      Usable s.data → (∀ p ∈ l, InBox s.data.range.lo s.data.range.hi p) →
      fillField O expr D N f slot value l s = some s' →
      s'.data.range = s.data.range ∧ Usable s'.data ∧
      (∀ p ∈ l, ∃ x, s'.data.get? p = some x ∧ ValueAt O expr dummy t f slot σ₀ d p x) ∧
      ∀ p, InBox s.data.range.lo s.data.range.hi p → p ∉ l → s'.data.get? p = s.data.get? p := by
  intro l
  induction l with
  | nil =>
    intro s s' _ _ _ _ _ _ _ _ _ hg _ h
    simp only [fillField, List.foldlM_nil, Option.pure_def, Option.some.injEq] at h
    subst h
    exact ⟨rfl, hg, by simp, fun _ _ _ => rfl⟩
  | cons a l ih =>
    intro s s' hH hI hDp hPar hid hf hw hx hv hg hl h
    simp only [fillField, List.foldlM_cons, Option.bind_eq_bind, Option.bind_eq_some_iff] at h
    obtain ⟨s1, h1, h2⟩ := h
    simp only [fillCell, Option.bind_eq_some_iff, Option.map_eq_some_iff] at h1
    obtain ⟨⟨U1, σ1⟩, hu, g1, hg1, rfl⟩ := h1
    obtain ⟨c1, c2, c3, c4, c5⟩ := setCoords_spec f slot hinj a s.vars
    have hnode : Node s.vars dummy t = Node σ₀ dummy t := node_congr dummy t hf
    have hnodec : Node (setCoords f slot a s.vars) dummy t = Node σ₀ dummy t := by rw [node_congr dummy t c2, hnode]
    have hedgec : Edge (setCoords f slot a s.vars) expr dummy t = Edge σ₀ expr dummy t := by
      rw [edge_congr c1 c2, edge_congr hid hf]
    have hHc : History O expr D dummy t s.updater (setCoords f slot a s.vars) := by
      refine .change hH ⟨c4, c2, c1, fun v hvn hvi x hxe => (c5 x).2 ?_⟩
      rintro i rfl
      rw [hnode] at hvn
      rw [hI] at hvi
      exact hc v hvn hvi i hxe
    have hH1 : History O expr D dummy t U1 σ1 := .update N hHc hu
    have hinv := history_inv hHc
    obtain ⟨-, e2, e3, e4, -, -, e7, e8, e9, e10, e11⟩ := hinv.update N hu
    obtain ⟨g1', w1, w2, w3, w4, w5⟩ := C07_write_read s.data hg a (hl a (by simp)) (σ1.ext value)
    rw [hg1, Option.some.injEq] at w1
    subst w1
    have hsepc : ∀ v, Node σ₀ dummy t v → ∀ y ∈ externals (expr v), σ1.ext y = (setCoords f slot a s.vars).ext y := by
      intro v hvn y hy
      refine e10 y fun q hq hc => hinv.separate q hq v ?_ (hc ▸ hy)
      rw [hnodec]; exact hvn
    have hval1 : ∀ v, ¬ Node σ₀ dummy t v → σ1.value v = σ₀.value v := by
      intro v hvn
      rw [e11 v, c4, hv v hvn]
      rintro ⟨⟨i, hi, hiv⟩, -⟩
      refine hvn ?_
      rcases ReflTransGen.cases_tail hiv with rfl | ⟨y, _, hy⟩
      · rw [← hnodec]; exact hinv.indepNode _ hi
      · rw [← hnodec]; exact .inr hy.2.1
    obtain ⟨i2, i3, i4, i5⟩ := ih ⟨U1, σ1, g1⟩ s' hH1 (e4.trans hI) (e2.trans hDp) (e3.trans hPar) (e8.trans (c1.trans hid))
      (e9.trans (c2.trans hf)) (e7.trans (c3.trans hw))
      (fun v hvn y hy hys => by rw [hsepc v hvn y hy, (c5 y).2 hys, hx v hvn y hy hys]) hval1 w3
      (by rw [w2]; exact fun p hp => hl p (by simp [hp])) h2
    simp only at i2 i3 i4 i5
    have hcell : ValueAt O expr dummy t f slot σ₀ d a (σ1.ext value) := by
      have hdd : d ∈ s.updater.dependent := by rw [hDp]; exact hd
      have hup : Upstream (setCoords f slot a s.vars) expr dummy t = Upstream σ₀ expr dummy t := by
        funext u v; simp only [Upstream, hedgec]
      have hcur := (C35_dependents_current O expr D dummy t s.updater U1 _ σ1 hHc N hu).1 d hdd
      rw [hup] at hcur
      refine ⟨⟨σ1, e8.trans (c1.trans hid), e9.trans (c2.trans hf), e7.trans (c3.trans hw), fun v hvn y hy => ?_, hval1, hcur⟩, ?_⟩
      · rw [ExtAt, hsepc v hvn y hy]
        exact ⟨(c5 y).1, fun hys => by rw [(c5 y).2 hys, hx v hvn y hy hys]⟩
      rintro τ ⟨t1, t2, t3, t4, t5, t6⟩
      have hscratch := C35_as_from_scratch O expr D dummy t s.updater U1 _ σ1 hHc N hu d hdd
        (by rw [hup, hedgec]; exact hac) τ (by rw [t1, c1, hid]) (by rw [t3, c3, hw])
        (by
          rw [hnodec]
          intro v hvn y hy
          by_cases hys : ∃ i, y = slot i
          · obtain ⟨i, rfl⟩ := hys
            rw [(t4 v hvn _ hy).1 i rfl, (c5 _).1 i rfl]
          · push Not at hys
            rw [(t4 v hvn y hy).2 hys, (c5 y).2 hys, hx v hvn y hy hys])
        (by
          rw [hnodec]
          intro v hvn
          rw [t5 v hvn, c4, hv v hvn])
        (by rw [hup]; exact t6)
      have hpar := (C35_dependents_current O expr D dummy t s.updater U1 _ σ1 hHc N hu).2
      obtain ⟨q, hqm, hqv, hqt, hqr⟩ := hq
      rw [← hPar] at hqm
      have := (hpar q hqm).2 hqr
      rw [hqt, hqv] at this
      rw [this, hscratch]
    refine ⟨i2.trans w2, i3, fun p hp => ?_, fun p hp hpl => ?_⟩
    · by_cases hpl : p ∈ l
      · exact i4 p hpl
      · have hpa : p = a := by simpa [hpl] using hp
        subst hpa
        exact ⟨σ1.ext value, by rw [i5 p (by rw [w2]; exact hl p (by simp)) hpl, w4], hcell⟩
    · simp only [List.mem_cons, not_or] at hpl
      rw [i5 p (by rw [w2]; exact hp) hpl.2, w5 p hp hpl.1]

/-- **C50** When `fill_field` returns, every cell of the field, ghost cells included, holds the value of the formula at that cell's
physical position. `slot i` is where coordinate `i` is stored; only independent variables refer to coordinates. `d` is the variable
with the formula and `value` the place its value is copied to. What goes into `d` must not depend on itself. -/
theorem C50_fill_field (O : FloatOps K) (expr : Var → Expr K W) (D : DepMap) (dummy : Var) (t : Tree) (N : ℕ)
    (f : FieldShape K (n + 1)) (slot : Fin (n + 1) → ℕ) (value : ℕ) (hinj : Function.Injective slot) (s s' : FillState K W n)
    (hH : History O expr D dummy t s.updater s.vars)
    (hc : ∀ v, Node s.vars dummy t v → v ∉ s.updater.independent → ∀ i, slot i ∉ externals (expr v))
    (d : Var) (hq : ∃ q ∈ s.updater.params, q.var = d ∧ q.target = value ∧ q.readOnly = false)
    (hac : ∀ u, Upstream s.vars expr dummy t u d → ¬ TransGen (Edge s.vars expr dummy t) u u)
    (hg : Usable s.data) (hr : f.range = s.data.range) (l : List (Idx (n + 1))) (hl : f.range.IterLoop f.range.iterBegin l)
    (h : fillField O expr D N f slot value l s = some s') :
    s'.data.range = s.data.range ∧
    ∀ p, InBox s.data.range.lo s.data.range.hi p → ∃ x, s'.data.get? p = some x ∧ ValueAt O expr dummy t f slot s.vars d p x := by
  rw [hr] at hl
  obtain ⟨l', e1, hu⟩ := C01_iterator_enumerates_range s.data.range hg.nonempty
  obtain rfl := (hu l).mp hl
  have hd : d ∈ s.updater.dependent := by
    obtain ⟨q, hqm, rfl, -⟩ := hq
    exact (history_inv hH).paramDep q hqm
  obtain ⟨h1, -, h3, -⟩ := fill_spec O expr D dummy t N f slot value hinj s.vars s.updater hc d hd hq hac l s s' hH rfl rfl rfl rfl
    rfl rfl (fun _ _ _ _ _ => rfl) (fun _ _ => rfl) hg (fun p hp => (e1.mem_iff p).mp hp) h
  exact ⟨h1, fun p hp => h3 p ((e1.mem_iff p).mpr hp)⟩

/-- **C50** `fill_field` with a parameter for the formula: it does not matter which formulas have been used with the updater before.
First case, a formula that is not constant. -/
theorem C50_fill_field_dependent (O : FloatOps K) (expr : Var → Expr K W) (D : DepMap) (dummy : Var) (t : Tree) (N : ℕ)
    (f : FieldShape K (n + 1)) (slot : Fin (n + 1) → ℕ) (hinj : Function.Injective slot) (s s' : FillState K W n)
    (hH : History O expr D dummy t s.updater s.vars)
    (hc : ∀ v, Node s.vars dummy t v → v ∉ s.updater.independent → ∀ i, slot i ∉ externals (expr v))
    (q : Param) (hqr : q.readOnly = false) (hqt : q.var ∈ allVars t) (hqs : Separate s.vars expr dummy t q)
    (hqf : s.vars.fixed q.var = false)
    (hac : ∀ u, Upstream s.vars expr dummy t u q.var → ¬ TransGen (Edge s.vars expr dummy t) u u)
    (hg : Usable s.data) (hr : f.range = s.data.range) (l : List (Idx (n + 1))) (hl : f.range.IterLoop f.range.iterBegin l)
    (h : fillFieldDependent O expr D N f slot q.target q l s = some s') :
    s'.data.range = s.data.range ∧
    ∀ p, InBox s.data.range.lo s.data.range.hi p →
      ∃ x, s'.data.get? p = some x ∧ ValueAt O expr dummy t f slot s.vars q.var p x := by
  have hadd : (s.updater.clearDependent.addDependent s.vars q) =
      ({ s.updater.clearDependent with params := [q], dependent := {q.var}, isValid := false }, s.vars) := by
    simp [Updater.addDependent, Updater.clearDependent, hqf]
  have hH' : History O expr D dummy t (s.updater.clearDependent.addDependent s.vars q).1
      (s.updater.clearDependent.addDependent s.vars q).2 :=
    .dependent q (.clear hH) hqt hqs (fun _ q' hq' => by simp [Updater.clearDependent] at hq')
  rw [hadd] at hH'
  simp only [fillFieldDependent, hadd] at h
  exact C50_fill_field O expr D dummy t N f slot q.target hinj
    ⟨{ s.updater.clearDependent with params := [q], dependent := {q.var}, isValid := false }, s.vars, s.data⟩ s' hH' hc q.var
    ⟨q, by simp, rfl, rfl, hqr⟩ hac hg hr l hl h

/-- **C50** `fill_field` with a parameter for a constant formula: every cell holds the constant. -/
theorem C50_fill_field_constant (O : FloatOps K) (expr : Var → Expr K W) (D : DepMap) (dummy : Var) (t : Tree) (N : ℕ)
    (f : FieldShape K (n + 1)) (slot : Fin (n + 1) → ℕ) (hinj : Function.Injective slot) (s s' : FillState K W n)
    (hH : History O expr D dummy t s.updater s.vars) (q : Param) (hqr : q.readOnly = false)
    (hqf : s.vars.fixed q.var = true) (hqs : ∀ i, q.target ≠ slot i) (hsep : Separate s.vars expr dummy t q)
    (hqt : q.var ∈ allVars t)
    (hc : ∀ v, Node s.vars dummy t v → v ∉ s.updater.independent → ∀ i, slot i ∉ externals (expr v))
    (hg : Usable s.data) (hr : f.range = s.data.range) (l : List (Idx (n + 1))) (hl : f.range.IterLoop f.range.iterBegin l)
    (h : fillFieldDependent O expr D N f slot q.target q l s = some s') :
    s'.data.range = s.data.range ∧
    ∀ p, InBox s.data.range.lo s.data.range.hi p → s'.data.get? p = some (s.vars.value q.var) := by
  rw [hr] at hl
  obtain ⟨l', e1, hu⟩ := C01_iterator_enumerates_range s.data.range hg.nonempty
  obtain rfl := (hu l).mp hl
  have hadd : (s.updater.clearDependent.addDependent s.vars q) = (s.updater.clearDependent, q.update s.vars) := by
    simp [Updater.addDependent, hqf]
  have hH' : History O expr D dummy t (s.updater.clearDependent.addDependent s.vars q).1
      (s.updater.clearDependent.addDependent s.vars q).2 :=
    .dependent q (.clear hH) hqt hsep (fun _ q' hq' => by simp [Updater.clearDependent] at hq')
  rw [hadd] at hH'
  simp only [fillFieldDependent, hadd] at h
  have hupd : (q.update s.vars).ext q.target = s.vars.value q.var ∧ (q.update s.vars).fixed = s.vars.fixed := by
    simp [Param.update, hqr]
  -- the loop
  have key : ∀ (l : List (Idx (n + 1))) (s1 s2 : FillState K W n), History O expr D dummy t s1.updater s1.vars →
      s1.updater.independent = s.updater.independent → s1.updater.params = [] → s1.vars.ext q.target = s.vars.value q.var →
      s1.vars.fixed = s.vars.fixed →
      Usable s1.data → (∀ p ∈ l, InBox s1.data.range.lo s1.data.range.hi p) → fillField O expr D N f slot q.target l s1 = some s2 →
      s2.data.range = s1.data.range ∧ (∀ p ∈ l, s2.data.get? p = some (s.vars.value q.var)) ∧
        ∀ p, InBox s1.data.range.lo s1.data.range.hi p → p ∉ l → s2.data.get? p = s1.data.get? p := by
    intro l
    induction l with
    | nil =>
      intro s1 s2 _ _ _ _ _ _ _ h
      simp only [fillField, List.foldlM_nil, Option.pure_def, Option.some.injEq] at h
      subst h
      exact ⟨rfl, by simp, fun _ _ _ => rfl⟩
    | cons a l ih =>
      intro s1 s3 hH1 hI hP hx hf hg1 hl h
      simp only [fillField, List.foldlM_cons, Option.bind_eq_bind, Option.bind_eq_some_iff] at h
      obtain ⟨s2, h1, h2⟩ := h
      simp only [fillCell, Option.bind_eq_some_iff, Option.map_eq_some_iff] at h1
      obtain ⟨⟨U1, σ1⟩, hu, g1, hgs, rfl⟩ := h1
      obtain ⟨c1, c2, c3, c4, c5⟩ := setCoords_spec f slot hinj a s1.vars
      have hHc : History O expr D dummy t s1.updater (setCoords f slot a s1.vars) := by
        refine .change hH1 ⟨c4, c2, c1, fun v hvn hvi x hxe => (c5 x).2 ?_⟩
        rintro i rfl
        rw [node_congr dummy t hf] at hvn
        rw [hI] at hvi
        exact hc v hvn hvi i hxe
      obtain ⟨-, e2, e3, e4, -, -, e7, e8, e9, e10, e11⟩ := (history_inv hHc).update N hu
      have hval : σ1.ext q.target = s.vars.value q.var := by
        rw [e10 _ (by rw [hP]; simp), (c5 _).2 hqs, hx]
      obtain ⟨g1', w1, w2, w3, w4, w5⟩ := C07_write_read s1.data hg1 a (hl a (by simp)) (σ1.ext q.target)
      rw [hgs, Option.some.injEq] at w1
      subst w1
      obtain ⟨i2, i4, i5⟩ := ih ⟨U1, σ1, g1⟩ s3 (.update N hHc hu) (e4.trans hI) (e3.trans hP) hval (e9.trans (c2.trans hf)) w3
        (by rw [w2]; exact fun p hp => hl p (by simp [hp])) h2
      simp only at i2 i4 i5
      refine ⟨i2.trans w2, fun p hp => ?_, fun p hp hpl => ?_⟩
      · by_cases hpl : p ∈ l
        · exact i4 p hpl
        · have hpa : p = a := by simpa [hpl] using hp
          subst hpa
          rw [i5 p (by rw [w2]; exact hl p (by simp)) hpl, w4, hval]
      · simp only [List.mem_cons, not_or] at hpl
        rw [i5 p (by rw [w2]; exact hp) hpl.2, w5 p hp hpl.1]
  obtain ⟨k1, k2, -⟩ := key l ⟨s.updater.clearDependent, q.update s.vars, s.data⟩ s' hH' rfl rfl hupd.1 hupd.2 hg
    (fun p hp => (e1.mem_iff p).mp hp) h
  exact ⟨k1, fun p hp => k2 p ((e1.mem_iff p).mpr hp)⟩

/-- what happens to an updater in `fill_field` is a history -/
private theorem fill_history (O : FloatOps K) (expr : Var → Expr K W) (D : DepMap) (dummy : Var) (t : Tree) (N : ℕ)
    (f : FieldShape K (n + 1)) (slot : Fin (n + 1) → ℕ) (value : ℕ) (hinj : Function.Injective slot) (σ₀ : State K W) (U₀ : Updater)
    (hc : ∀ v, Node σ₀ dummy t v → v ∉ U₀.independent → ∀ i, slot i ∉ externals (expr v)) :
    ∀ (l : List (Idx (n + 1))) (s s' : FillState K W n), History O expr D dummy t s.updater s.vars →
      s.updater.independent = U₀.independent → s.updater.dependent = U₀.dependent → s.updater.params = U₀.params → s.vars.fixed = σ₀.fixed →
      fillField O expr D N f slot value l s = some s' →
      (∀ a, History O expr D dummy t s'.updater (setCoords f slot a s'.vars)) ∧ s'.updater.independent = U₀.independent ∧
        s'.updater.dependent = U₀.dependent ∧ s'.updater.params = U₀.params := by
  intro l
  have hcoord : ∀ (s : FillState K W n) (a : Idx (n + 1)), History O expr D dummy t s.updater s.vars →
      s.updater.independent = U₀.independent → s.vars.fixed = σ₀.fixed → History O expr D dummy t s.updater (setCoords f slot a s.vars) := by
    intro s a hH hI hf
    obtain ⟨c1, c2, c3, c4, c5⟩ := setCoords_spec f slot hinj a s.vars
    refine .change hH ⟨c4, c2, c1, fun v hvn hvi x hxe => (c5 x).2 ?_⟩
    rintro i rfl
    rw [node_congr dummy t hf] at hvn
    rw [hI] at hvi
    exact hc v hvn hvi i hxe
  induction l with
  | nil =>
    intro s s' hH hI hDp hPar hf h
    simp only [fillField, List.foldlM_nil, Option.pure_def, Option.some.injEq] at h
    subst h
    exact ⟨fun a => hcoord s a hH hI hf, hI, hDp, hPar⟩
  | cons a l ih =>
    intro s s' hH hI hDp hPar hf h
    simp only [fillField, List.foldlM_cons, Option.bind_eq_bind, Option.bind_eq_some_iff] at h
    obtain ⟨s1, h1, h2⟩ := h
    simp only [fillCell, Option.bind_eq_some_iff, Option.map_eq_some_iff] at h1
    obtain ⟨⟨U1, σ1⟩, hu, g1, hg1, rfl⟩ := h1
    obtain ⟨c1, c2, c3, c4, c5⟩ := setCoords_spec f slot hinj a s.vars
    have hHc := hcoord s a hH hI hf
    obtain ⟨-, e2, e3, e4, -, -, e7, e8, e9, -⟩ := (history_inv hHc).update N hu
    exact ih ⟨U1, σ1, g1⟩ s' (.update N hHc hu) (e4.trans hI) (e2.trans hDp) (e3.trans hPar) (e9.trans (c2.trans hf)) h2

theorem fillThrow_spec (O : FloatOps K) (expr : Var → Expr K W) (D : DepMap) (N : ℕ) (f : FieldShape K (n + 1))
    (slot : Fin (n + 1) → ℕ) (value : ℕ) : ∀ (l : List (Idx (n + 1))) (s e : FillState K W n),
    fillThrow O expr D N f slot value l s = some e → ∃ l₁ a l₂ s₁, l = l₁ ++ a :: l₂ ∧ fillField O expr D N f slot value l₁ s = some s₁ ∧
      s₁.updater.updateThrow O expr D N (setCoords f slot a s₁.vars) = some (e.updater, e.vars) ∧ e.data = s₁.data := by
  intro l
  induction l with
  | nil => intro s e h; simp [fillThrow] at h
  | cons p l ih =>
    intro s e h
    rw [fillThrow] at h
    rcases hp : fillCell O expr D N f slot value s p with _ | s'
    · rw [hp] at h
      simp only [Option.map_eq_some_iff] at h
      obtain ⟨⟨U, σ⟩, hu, rfl⟩ := h
      exact ⟨[], p, l, s, rfl, rfl, hu, rfl⟩
    · rw [hp] at h
      obtain ⟨l₁, a, l₂, s₁, rfl, h2, h3, h4⟩ := ih s' e h
      refine ⟨p :: l₁, a, l₂, s₁, rfl, ?_, h3, h4⟩
      rw [fillField, List.foldlM_cons, hp]
      exact h2

/-- **C138** If an evaluation throws an exception while a field is filled, the cells reached before hold the value of the formula at their
positions, and all others hold what they did before. The updater can be used further: what has happened to it is a history, and it has the
same parameters as before. -/
theorem C138_fill_throws (O : FloatOps K) (expr : Var → Expr K W) (D : DepMap) (dummy : Var) (t : Tree) (N : ℕ)
    (f : FieldShape K (n + 1)) (slot : Fin (n + 1) → ℕ) (value : ℕ) (hinj : Function.Injective slot) (s e : FillState K W n)
    (hH : History O expr D dummy t s.updater s.vars)
    (hc : ∀ v, Node s.vars dummy t v → v ∉ s.updater.independent → ∀ i, slot i ∉ externals (expr v))
    (d : Var) (hq : ∃ q ∈ s.updater.params, q.var = d ∧ q.target = value ∧ q.readOnly = false)
    (hac : ∀ u, Upstream s.vars expr dummy t u d → ¬ TransGen (Edge s.vars expr dummy t) u u)
    (hg : Usable s.data) (hr : f.range = s.data.range) (l : List (Idx (n + 1))) (hl : f.range.IterLoop f.range.iterBegin l)
    (h : fillThrow O expr D N f slot value l s = some e) :
    e.data.range = s.data.range ∧
    (∃ l₁ a l₂, l = l₁ ++ a :: l₂ ∧
      (∀ p ∈ l₁, ∃ x, e.data.get? p = some x ∧ ValueAt O expr dummy t f slot s.vars d p x) ∧
      ∀ p, InBox s.data.range.lo s.data.range.hi p → p ∉ l₁ → e.data.get? p = s.data.get? p) ∧
    History O expr D dummy t e.updater e.vars ∧ e.updater.independent = s.updater.independent ∧ e.updater.dependent = s.updater.dependent ∧
    e.updater.params = s.updater.params := by
  rw [hr] at hl
  obtain ⟨l', e1, hu⟩ := C01_iterator_enumerates_range s.data.range hg.nonempty
  obtain rfl := (hu l).mp hl
  have hd : d ∈ s.updater.dependent := by
    obtain ⟨q, hqm, rfl, -⟩ := hq
    exact (history_inv hH).paramDep q hqm
  obtain ⟨l₁, a, l₂, s₁, rfl, h2, h3, h4⟩ := fillThrow_spec O expr D N f slot value l s e h
  obtain ⟨g1, g2, g3, g4⟩ := fill_history O expr D dummy t N f slot value hinj s.vars s.updater hc l₁ s s₁ hH rfl rfl rfl rfl h2
  obtain ⟨f1, -, f3, f4⟩ := fill_spec O expr D dummy t N f slot value hinj s.vars s.updater hc d hd hq hac l₁ s s₁ hH rfl rfl rfl rfl
    rfl rfl (fun _ _ _ _ _ => rfl) (fun _ _ => rfl) hg (fun p hp => (e1.mem_iff p).mp (by simp [hp])) h2
  obtain ⟨-, k1, k2, k3, -⟩ := (history_inv (g1 a)).failed N h3
  rw [h4]
  exact ⟨f1, ⟨l₁, a, l₂, rfl, f3, f4⟩, .failed N (g1 a) h3, k1.trans g2, k2.trans g3, k3.trans g4⟩

/-- **C50** `fill_field` does not fail unless an update does: if every update of this updater is possible, it returns. -/
theorem C50_returns (O : FloatOps K) (expr : Var → Expr K W) (D : DepMap) (N : ℕ) (f : FieldShape K (n + 1))
    (slot : Fin (n + 1) → ℕ) (value : ℕ) (s : FillState K W n) (good : Updater → State K W → Prop) (h0 : good s.updater s.vars)
    (hgood : ∀ U σ p, good U σ → ∃ U' σ', U.update O expr D N (setCoords f slot p σ) = some (U', σ') ∧ good U' σ')
    (hg : Usable s.data) (hr : f.range = s.data.range) (l : List (Idx (n + 1))) (hl : f.range.IterLoop f.range.iterBegin l) :
    ∃ s', fillField O expr D N f slot value l s = some s' := by
  rw [hr] at hl
  obtain ⟨l', e1, hu⟩ := C01_iterator_enumerates_range s.data.range hg.nonempty
  obtain rfl := (hu l).mp hl
  have hin : ∀ p ∈ l, InBox s.data.range.lo s.data.range.hi p := fun p hp => (e1.mem_iff p).mp hp
  clear e1 hu hl
  induction l generalizing s with
  | nil => exact ⟨s, rfl⟩
  | cons a l ih =>
    obtain ⟨U', σ', h1, h2⟩ := hgood _ _ a h0
    obtain ⟨g1, w1, w2, w3, -⟩ := C07_write_read s.data hg a (hin a (by simp)) (σ'.ext value)
    obtain ⟨s', hs'⟩ := ih ⟨U', σ', g1⟩ h2 w3 (hr.trans w2.symm) (by rw [w2]; exact fun p hp => hin p (by simp [hp]))
    refine ⟨s', ?_⟩
    simp only [fillField, List.foldlM_cons, Option.bind_eq_bind, fillCell, h1, Option.bind_some, w1, Option.map_some]
    exact hs'

end

/-! ## several fields -/

open Filler

/-- What each filler should do: the fields given to it since its last `clear`, in order, each with the coordinates and the updater
given for it. -/
def expectedImpls (calls : List Call) : Ref → List Impl :=
  calls.foldl (fun m c => match c with
    | .set f c u fields => Function.update m f (m f ++ fields.map fun x => ⟨x.1, c, x.2, u⟩)
    | .clear f => Function.update m f []) fun _ => []

private theorem add_all (a : Adder) (fields : List (Ref × Ref)) (m : Memory) :
    (fields.foldl (fun m f => add m a f.1 f.2) m).adder = m.adder ∧
    (fields.foldl (fun m f => add m a f.1 f.2) m).impls =
      Function.update m.impls a.owner (m.impls a.owner ++ fields.map fun x => ⟨x.1, a.coords, x.2, a.updater⟩) := by
  induction fields generalizing m with
  | nil => simp
  | cons x l ih =>
    obtain ⟨h1, h2⟩ := ih (add m a x.1 x.2)
    rw [List.foldl_cons]
    refine ⟨h1, h2.trans ?_⟩
    funext f
    by_cases hf : f = a.owner
    · subst hf; simp [add]
    · simp [add, Function.update_of_ne hf]

/-- **C72**, for programs that always use the same filler with the same coordinates and the same updater (for a given number of
dimensions): what the filler does is what it has been told. Missing: all other programs, for which it is false (below). -/
theorem C72_filler_partial (filler coords updater : Ref) (calls : List Call)
    (h : ∀ c ∈ calls, ∀ f x u fields, c = .set f x u fields → f = filler ∧ x = coords ∧ u = updater) :
    (runs calls).impls = expectedImpls calls := by
  have key : ∀ (calls : List Call) (m : Memory) (e : Ref → List Impl),
      (∀ c ∈ calls, ∀ f x u fields, c = .set f x u fields → f = filler ∧ x = coords ∧ u = updater) →
      m.impls = e → (m.adder = none ∨ m.adder = some ⟨coords, updater, filler⟩) →
      (calls.foldl run m).impls = calls.foldl (fun m c => match c with
        | .set f c u fields => Function.update m f (m f ++ fields.map fun x => ⟨x.1, c, x.2, u⟩)
        | .clear f => Function.update m f []) e := by
    intro calls
    induction calls with
    | nil => intro m e _ hm _; exact hm
    | cons c calls ih =>
      intro m e hc hm ha
      rw [List.foldl_cons, List.foldl_cons]
      refine ih _ _ (fun c' hc' => hc c' (by simp [hc'])) ?_ ?_
      · cases c with
        | clear f => simp [run, clear, hm]
        | set f x u fields =>
          obtain ⟨rfl, rfl, rfl⟩ := hc _ (by simp) f x u fields rfl
          simp only [run]
          rw [(add_all _ fields _).2]
          rcases ha with ha | ha <;> simp [Filler.set, ha, hm]
      · cases c with
        | clear f => exact ha
        | set f x u fields =>
          obtain ⟨rfl, rfl, rfl⟩ := hc _ (by simp) f x u fields rfl
          simp only [run]
          rw [(add_all _ fields _).1]
          rcases ha with ha | ha <;> simp [Filler.set, ha]
  exact key calls Filler.initial (fun _ => []) h rfl (.inl rfl)

/-- **C72 is false as soon as two different ones are used**: every field ever added goes to the first filler that was used, with the
coordinates and the updater of that first call; the other fillers fill nothing. -/
theorem C72_violated_static (f₁ c₁ u₁ : Ref) (fields₁ : List (Ref × Ref)) (calls : List Call) :
    (∀ f, f ≠ f₁ → (runs (.set f₁ c₁ u₁ fields₁ :: calls)).impls f = []) ∧
    ∀ i ∈ (runs (.set f₁ c₁ u₁ fields₁ :: calls)).impls f₁, i.coords = c₁ ∧ i.updater = u₁ := by
  have key : ∀ (calls : List Call) (m : Memory), m.adder = some ⟨c₁, u₁, f₁⟩ → (∀ f, f ≠ f₁ → m.impls f = []) →
      (∀ i ∈ m.impls f₁, i.coords = c₁ ∧ i.updater = u₁) →
      (∀ f, f ≠ f₁ → (calls.foldl run m).impls f = []) ∧
        ∀ i ∈ (calls.foldl run m).impls f₁, i.coords = c₁ ∧ i.updater = u₁ := by
    intro calls
    induction calls with
    | nil => intro m _ h1 h2; exact ⟨h1, h2⟩
    | cons c calls ih =>
      intro m ha h1 h2
      rw [List.foldl_cons]
      cases c with
      | clear g =>
        refine ih _ ha (fun f hf => ?_) ?_
        · by_cases hg : f = g
          · subst hg; simp [run, clear]
          · simp [run, clear, Function.update_of_ne hg, h1 f hf]
        · by_cases hg : f₁ = g
          · subst hg; simp [run, clear]
          · simp only [run, clear, Function.update_of_ne hg]; exact h2
      | set g x u fields =>
        have hset : Filler.set m g x u = (m, ⟨c₁, u₁, f₁⟩) := by simp [Filler.set, ha]
        have hrun : run m (.set g x u fields) = fields.foldl (fun m f => add m ⟨c₁, u₁, f₁⟩ f.1 f.2) m := by
          simp only [run, hset]
        obtain ⟨e1, e2⟩ := add_all ⟨c₁, u₁, f₁⟩ fields m
        rw [hrun]
        refine ih _ (e1.trans ha) (fun f hf => ?_) ?_
        · rw [e2]; simp only [Function.update_of_ne hf]; exact h1 f hf
        · rw [e2]
          simp only [Function.update_self, List.mem_append, List.mem_map]
          rintro i (hi | ⟨y, _, rfl⟩)
          · exact h2 i hi
          · exact ⟨rfl, rfl⟩
  have hrun : run Filler.initial (.set f₁ c₁ u₁ fields₁) =
      fields₁.foldl (fun m f => add m ⟨c₁, u₁, f₁⟩ f.1 f.2) (⟨fun _ => [], some ⟨c₁, u₁, f₁⟩⟩ : Memory) := by
    simp [run, Filler.set, Filler.initial]
  obtain ⟨e1, e2⟩ := add_all ⟨c₁, u₁, f₁⟩ fields₁ (⟨fun _ => [], some ⟨c₁, u₁, f₁⟩⟩ : Memory)
  simp only [runs, List.foldl_cons]
  rw [hrun]
  refine key calls _ e1 (fun f hf => ?_) ?_
  · rw [e2]; simp [Function.update_of_ne hf]
  · rw [e2]
    simp only [Function.update_self, List.nil_append, List.mem_map]
    rintro i ⟨y, _, rfl⟩
    exact ⟨rfl, rfl⟩

/-! ## examples -/

/-- two fillers: the second one should fill field 11, and fills nothing -/
example : expectedImpls [.set 0 1 2 [(10, 20)], .set 5 6 7 [(11, 21)]] 5 = [⟨11, 6, 21, 7⟩] ∧
    (runs [.set 0 1 2 [(10, 20)], .set 5 6 7 [(11, 21)]]).impls 5 = [] ∧
    (runs [.set 0 1 2 [(10, 20)], .set 5 6 7 [(11, 21)]]).impls 0 = [⟨10, 1, 20, 2⟩, ⟨11, 1, 21, 2⟩] := by
  decide

/-- a field of 3 cells and a ghost cell on each side -/
def chainField : FieldShape ℚ 1 := .ofSize ![3] ![0] ![3] ![true] 1

/-- The field is to be filled with `2 x`, see `chainExpr`; `x` is stored at place 1 and the value at place 2. -/
def chainFill : FillState ℚ Unit 0 := ⟨chainUpdater, chainChanged, Grid.create .c chainField.range fun _ => .int 0⟩

/-- the hypotheses of C50 are met -/
example : History ratOps chainExpr chainMap 0 chainTree chainFill.updater chainFill.vars ∧
    (∀ v, Node chainFill.vars 0 chainTree v → v ∉ chainFill.updater.independent → ∀ _ : Fin 1, 1 ∉ externals (chainExpr v)) ∧
    (∃ q ∈ chainFill.updater.params, q.var = 3 ∧ q.target = 2 ∧ q.readOnly = false) ∧
    (∀ u, ¬ TransGen (Edge chainFill.vars chainExpr 0 chainTree) u u) ∧ Usable chainFill.data ∧
    chainField.range = chainFill.data.range := by
  refine ⟨chain_history, ?_, ⟨_, List.mem_singleton.mpr rfl, rfl, rfl, rfl⟩, fun u => ?_, C07_create _ _ _ (by decide) (by decide), rfl⟩
  · intro v hv hvi _
    rcases (chain_node v).mp hv with rfl | rfl | rfl | rfl
    · simp [chainFill, chainUpdater] at hvi
    · simp [chainFill, chainUpdater] at hvi
    · simp [chainExpr, externals, externalsTerms]
    · simp [chainExpr, externals, externalsTerms]
  · have : Edge chainFill.vars chainExpr 0 chainTree = Edge chainState chainExpr 0 chainTree := edge_congr (σ := chainState) (σ' := chainChanged) rfl rfl _ _ _
    rw [this]
    exact chain_acyclic u

/-- the cells are at -1/2, 1/2, ..., 7/2 -/
example : ((fillField ratOps chainExpr chainMap 20 chainField (fun _ => 1) 2 [![-1], ![0], ![1], ![2], ![3]] chainFill).map
    fun s => s.data.buf) = some [.float (-1), .float 1, .float 3, .float 5, .float 7] := by
  decide +kernel

/-- only small numbers can be written so that they can be read again -/
def smallOps : FloatOps ℚ :=
  { ratOps with
    showFloat := fun x => if x < 2 then "1" else "x"
    readFloat := fun s => if s = "1" then some 1 else none }

/-- `2` is `1` written as text and read as a number, `3 = 2` -/
def smallExpr : Var → Expr ℚ Unit
  | 0 => .ext .int 0
  | 1 => .ext .float 1
  | 2 => .cast .float (.cast .str (.ref .float 1))
  | 3 => .ref .float 2
  | _ => .value (.float 0)

/-- `2` and `3` are `1` -/
def smallState : State ℚ Unit where
  value := fun v => if v = 0 then .int 0 else if v = 1 then .float 0 else .float 1
  fixed := fun v => v == 4
  id := fun v => (v : ℤ) + 10
  ext := fun x => if x = 0 then .int 0 else .float 0
  world := ()

/-- the map -/
def smallMap : DepMap := (DepMap.create smallState smallExpr 0 chainTree).get (by decide +kernel)

theorem small_node (v : ℕ) : Node smallState 0 chainTree v ↔ v = 0 ∨ v = 1 ∨ v = 2 ∨ v = 3 := by
  simp only [Node, NonConstant, chainTree, allVars, allVarsList, smallState, List.mem_append, List.mem_cons, List.not_mem_nil,
    or_false, beq_eq_false_iff_ne, ne_eq]
  constructor
  · rintro (h | ⟨h, h4⟩) <;> tauto
  · rintro (rfl | rfl | rfl | rfl) <;> simp

theorem small_history : History smallOps smallExpr smallMap 0 chainTree chainUpdater smallState := by
  have h0 : History smallOps smallExpr smallMap 0 chainTree (Updater.create 0) smallState := by
    refine .create smallState (by simp [smallMap]) ?_ ?_ ⟨0, rfl⟩
    · intro v hv
      rcases (small_node v).mp hv with rfl | rfl | rfl | rfl <;>
        simp [Current, smallExpr, smallState, Expr.eval, Val.ty, convert, smallOps]
    · refine ⟨fun a b h => ?_, fun v => ?_⟩
      · simp only [smallState] at h; exact_mod_cast (add_right_cancel h)
      · simp only [smallState]; omega
  have h1 := History.independent ⟨1, 1, true⟩ h0 ((small_node 1).mpr (by simp)) (by rfl)
  exact History.dependent ⟨3, 2, false⟩ h1 (by simp [chainTree, allVars, allVarsList]) (by
    intro v hv
    rcases (small_node v).mp hv with rfl | rfl | rfl | rfl <;> simp [smallExpr, externals])
    (by simp [Updater.create])

theorem small_edge (u v : ℕ) (h : Edge smallState smallExpr 0 chainTree u v) : u < v := by
  obtain ⟨hu', hv, hu⟩ := h
  rcases (small_node v).mp (.inr hv) with rfl | rfl | rfl | rfl
  · simp [Uses, smallExpr, Expr.deps] at hu
  · simp [Uses, smallExpr, Expr.deps] at hu
  · rcases (small_node u).mp hu' with rfl | rfl | rfl | rfl <;>
      simp [Uses, smallExpr, Expr.deps, smallState] at hu ⊢
  · rcases (small_node u).mp hu' with rfl | rfl | rfl | rfl <;>
      simp [Uses, smallExpr, Expr.deps, smallState] at hu ⊢

/-- the field is to be filled with `3` of `smallExpr` -/
def smallFill : FillState ℚ Unit 0 := ⟨chainUpdater, smallState, Grid.create .c chainField.range fun _ => .int 0⟩

/-- The hypotheses of `C138_fill_throws` are met: there is an exception at the fourth of five cells. -/
example : History smallOps smallExpr smallMap 0 chainTree smallFill.updater smallFill.vars ∧
    (∀ v, Node smallFill.vars 0 chainTree v → v ∉ smallFill.updater.independent → ∀ _ : Fin 1, 1 ∉ externals (smallExpr v)) ∧
    (∃ q ∈ smallFill.updater.params, q.var = 3 ∧ q.target = 2 ∧ q.readOnly = false) ∧
    (∀ u, ¬ TransGen (Edge smallFill.vars smallExpr 0 chainTree) u u) ∧ Usable smallFill.data ∧
    chainField.range = smallFill.data.range ∧
    ((fillThrow smallOps smallExpr smallMap 20 chainField (fun _ => 1) 2 [![-1], ![0], ![1], ![2], ![3]] smallFill).map
      fun s => s.data.buf) = some [.float 1, .float 1, .float 1, .int 0, .int 0] := by
  refine ⟨small_history, ?_, ⟨_, List.mem_singleton.mpr rfl, rfl, rfl, rfl⟩, fun u => ?_, C07_create _ _ _ (by decide) (by decide), rfl,
    by decide +kernel⟩
  · intro v hv hvi _
    rcases (small_node v).mp hv with rfl | rfl | rfl | rfl
    · simp [smallFill, chainUpdater] at hvi
    · simp [smallFill, chainUpdater] at hvi
    · simp [smallExpr, externals]
    · simp [smallExpr, externals]
  · have key : ∀ a b : ℕ, TransGen (Edge smallState smallExpr 0 chainTree) a b → a < b := by
      intro a b h
      induction h with
      | single h => exact small_edge _ _ h
      | tail _ h ih => exact lt_trans ih (small_edge _ _ h)
    exact fun h => lt_irrefl _ (key u u h)

end Schnek.Props
