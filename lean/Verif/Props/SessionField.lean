import Verif.Props.Session
import Verif.Props.FieldTools

/-!
# Filling fields with the formulas of a setup file (C142)
-/

namespace Schnek.Props

open Schnek.Deck Schnek.Deck.DepMap Schnek.Spec Schnek.Lemma.Deck Schnek.Lemma.Session Relation DeckState FieldTools

section

variable {K W : Type} [Field K] {n : ℕ}

/-- The variables where the coordinates are stored belong to independent read-only parameters. -/
def Coordinates (D : DeckState K W) (U : Updater) (slot : Fin (n + 1) → ℕ) : Prop :=
  ∀ i, ∃ c, Handle D c ∧ c.readOnly = true ∧ c.target = slot i ∧ c.var ∈ U.independent

/-- The value that the file gives to the variable `v` in the cell `p` of a field: the coordinates are those of the cell, and everything
else is as in `σ`. -/
def ValueAtCell (O : FloatOps K) (D : DeckState K W) (f : FieldShape K (n + 1)) (slot : Fin (n + 1) → ℕ) (σ : State K W) (v : ℕ)
    (p : Idx (n + 1)) (x : Val K) : Prop :=
  ∀ ext', (∀ y, ExtAt f slot p σ.ext ext' y) → ValueOf O D { σ with ext := ext' } v x

/-- while a field is being filled with the parameter `q` -/
private structure Filling (O : FloatOps K) (D : DeckState K W) (M : DepMap) (slot : Fin (n + 1) → ℕ) (σ₀ : State K W) (q : Param)
    (U : Updater) (σ : State K W) : Prop where
  session : Session O D M U σ
  coords : Coordinates D U slot
  world : σ.world = σ₀.world
  others : ∀ p, Handle D p → p.readOnly = true → (∀ i, p.target ≠ slot i) → σ.ext p.target = σ₀.ext p.target
  target : q ∈ U.params ∨ U.params = [] ∧ ValueOf O D σ₀ q.var (σ.ext q.target) ∧ ∃ x : Variable K W, D.heap[q.var]? = some x ∧ x.fixed = true ∧ x.value = σ.ext q.target

private theorem evals {P : Program K W} {deck : List (Stmt K)} {D : DeckState K W}
    (h : P.begin.parse P.host deck = some D) (heval : ∀ v e, DefinedBy D v e → e.eval P.host.ops D.state ≠ none) :
    ∀ v e, DefinedBy D v e → e.eval P.host.ops D.state = some (D.state.value v) := by
  intro v e hd
  obtain ⟨c1, -⟩ := C59_values_current P deck D h
  rcases c1 v e ((definedBy_finish (dinv_after P deck) (parse_some h).2 v e).mp hd) with h' | ⟨h', -⟩
  · exact h'
  · exact absurd h' (heval v e hd)

variable {P : Program K W} {deck : List (Stmt K)} {D : DeckState K W} {M : DepMap} {f : FieldShape K (n + 1)}
  {slot : Fin (n + 1) → ℕ} {q : Param}

/-- changing the coordinates -/
private theorem Filling.move (hnames : DistinctNames P.classes) (h : P.begin.parse P.host deck = some D)
    (heval : ∀ v e, DefinedBy D v e → e.eval P.host.ops D.state ≠ none) (hM : MapOf D M) (hinj : Function.Injective slot)
    (hq : Handle D q) (hr : q.readOnly = false) {σ₀ σ : State K W} {U : Updater}
    (hF : Filling P.host.ops D M slot σ₀ q U σ) (a : Idx (n + 1)) :
    Filling P.host.ops D M slot σ₀ q U (setCoords f slot a σ) := by
  have hD := read_of hnames h
  have hi := session_inv hD hM (evals h heval) hF.session
  obtain ⟨c1, c2, c3, c4, c5⟩ := setCoords_spec f slot hinj a σ
  have hslot : ∀ i, slot i ≠ D.nextExt := by
    intro i
    obtain ⟨c, hc, -, ht, -⟩ := hF.coords i
    have := hD.lt c hc
    omega
  have hqs : ∀ i, q.target ≠ slot i := by
    intro i ht
    obtain ⟨c, hc, hcr, hct, -⟩ := hF.coords i
    rw [hD.inj q c hq hc (ht.trans hct.symm), hcr] at hr
    simp at hr
  have hS : Session P.host.ops D M U (setCoords f slot a σ) := by
    have := Session.change (setCoords f slot a σ).ext σ.world hF.session ?_
    · convert this using 1
      have he : Function.update (setCoords f slot a σ).ext D.nextExt (.int 0) = (setCoords f slot a σ).ext := by
        refine Function.update_eq_self_iff.mpr ?_
        rw [(c5 D.nextExt).2 fun i => (hslot i).symm, hi.dummy]
      rw [he]
      rcases hσ : setCoords f slot a σ with ⟨v1, v2, v3, v4, v5⟩
      rw [hσ] at c1 c2 c3 c4
      simp only at c1 c2 c3 c4
      rw [c1, c2, c3, c4]
    · intro p hp hpr hpi
      refine (c5 p.target).2 fun i ht => hpi ?_
      obtain ⟨c, hc, -, hct, hci⟩ := hF.coords i
      rw [hD.inj p c hp hc (ht.trans hct.symm)]
      exact hci
  refine ⟨hS, hF.coords, c3.trans hF.world, ?_, ?_⟩
  · intro p hp hpr hps
    rw [(c5 p.target).2 hps]
    exact hF.others p hp hpr hps
  · rw [(c5 q.target).2 hqs]
    exact hF.target

/-- evaluating -/
private theorem Filling.update (hnames : DistinctNames P.classes) (h : P.begin.parse P.host deck = some D)
    (heval : ∀ v e, DefinedBy D v e → e.eval P.host.ops D.state ≠ none) (hM : MapOf D M) {σ₀ σ σ' : State K W} {U U' : Updater}
    (hF : Filling P.host.ops D M slot σ₀ q U σ) (N : ℕ) (hu : U.update P.host.ops D.withDummy.expr M N σ = some (U', σ')) :
    Filling P.host.ops D M slot σ₀ q U' σ' ∧ ValueOf P.host.ops D σ' q.var (σ'.ext q.target) ∧ U'.independent = U.independent ∧
      U'.params = U.params ∧ ∀ p, Handle D p → p.readOnly = true → σ'.ext p.target = σ.ext p.target := by
  have hD := read_of hnames h
  have hi := session_inv hD hM (evals h heval) hF.session
  obtain ⟨-, -, k2, k3, -, -, k4, k5, k6, k7, -⟩ := (Lemma.Dep.history_inv hi.history).update N hu
  have hro : ∀ p, Handle D p → p.readOnly = true → σ'.ext p.target = σ.ext p.target := by
    intro p hp hpr
    refine k7 p.target fun p' hp' ht => ?_
    obtain ⟨hh', hr'⟩ := hi.params p' hp'
    rw [hD.inj p' p hh' hp ht, hpr] at hr'
    simp at hr'
  refine ⟨⟨.update N hF.session hu, ?_, k4.trans hF.world, ?_, ?_⟩, ?_, k3, k2, hro⟩
  · intro i
    rw [k3]
    exact hF.coords i
  · intro p hp hpr hps
    rw [hro p hp hpr]
    exact hF.others p hp hpr hps
  · rw [k2]
    rcases hF.target with ht | ⟨ht, ht'⟩
    · exact .inl ht
    · refine .inr ⟨ht, ?_⟩
      rw [k7 q.target (by simp [ht])]
      exact ht'
  · rcases hF.target with ht | ⟨ht, -, x, hx, hxf, hxv⟩
    · exact (C141_follows_partial P hnames deck D h heval M hM U U' σ σ' hF.session N hu q ht).1
    · rw [k7 q.target (by simp [ht]), ← hxv]
      exact .constant hx hxf

private theorem fill (hnames : DistinctNames P.classes) (h : P.begin.parse P.host deck = some D)
    (heval : ∀ v e, DefinedBy D v e → e.eval P.host.ops D.state ≠ none) (hM : MapOf D M) (hinj : Function.Injective slot)
    (hq : Handle D q) (hr : q.readOnly = false) (N : ℕ) (σ₀ : State K W) :
    ∀ (l : List (Idx (n + 1))) (s s' : FillState K W n), Filling P.host.ops D M slot σ₀ q s.updater s.vars → Usable s.data →
      (∀ p ∈ l, InBox s.data.range.lo s.data.range.hi p) →
      fillField P.host.ops D.withDummy.expr M N f slot q.target l s = some s' →
      Filling P.host.ops D M slot σ₀ q s'.updater s'.vars ∧ s'.updater.independent = s.updater.independent ∧
      s'.updater.params = s.updater.params ∧ s'.data.range = s.data.range ∧ Usable s'.data ∧
      (∀ p ∈ l, ∃ x, s'.data.get? p = some x ∧ ValueAtCell P.host.ops D f slot σ₀ q.var p x) ∧
      (∀ p, InBox s.data.range.lo s.data.range.hi p → p ∉ l → s'.data.get? p = s.data.get? p) := by
  have hD := read_of hnames h
  intro l
  induction l with
  | nil =>
    intro s s' hF hg hin hs
    simp only [fillField, List.foldlM_nil, Option.pure_def, Option.some.injEq] at hs
    subst hs
    exact ⟨hF, rfl, rfl, rfl, hg, by simp, fun _ _ _ => rfl⟩
  | cons a l ih =>
    intro s s' hF hg hin hs
    simp only [fillField, List.foldlM_cons, Option.bind_eq_bind, fillCell, Option.bind_eq_some_iff, Option.map_eq_some_iff] at hs
    obtain ⟨s1, ⟨⟨U1, σ1⟩, hu, g, hset, rfl⟩, hs⟩ := hs
    have hF0 := hF.move (f := f) hnames h heval hM hinj hq hr a
    obtain ⟨hF1, hv, hI, hP, hro⟩ := hF0.update hnames h heval hM N hu
    obtain ⟨g1, w1, w2, w3, w4, w5⟩ := C07_write_read s.data hg a (hin a (by simp)) (σ1.ext q.target)
    rw [w1, Option.some.injEq] at hset
    subst hset
    obtain ⟨j1, j2, j3, j4, j5, j6, j7⟩ := ih ⟨U1, σ1, g1⟩ s' hF1 w3 (by simp only [w2]; exact fun p hp => hin p (by simp [hp])) hs
    simp only [w2] at j4 j7
    have hcell : ValueAtCell P.host.ops D f slot σ₀ q.var a (σ1.ext q.target) := by
      intro ext' he
      refine valueOf_congr (τ := { σ₀ with ext := ext' }) hD hF1.world.symm ?_ hv
      intro p hp hpr
      rw [hro p hp hpr]
      simp only
      have c5 := (setCoords_spec f slot hinj a s.vars).2.2.2.2 p.target
      by_cases hps : ∃ i, p.target = slot i
      · obtain ⟨i, hi⟩ := hps
        rw [(he p.target).1 i hi, c5.1 i hi]
      · push Not at hps
        rw [(he p.target).2 hps, c5.2 hps, hF.others p hp hpr hps]
    refine ⟨j1, j2.trans hI, j3.trans hP, j4, j5, ?_, ?_⟩
    · intro p hp
      by_cases hpl : p ∈ l
      · exact j6 p hpl
      · obtain rfl : p = a := by
          rcases List.mem_cons.mp hp with h' | h'
          · exact h'
          · exact absurd h' hpl
        refine ⟨_, ?_, hcell⟩
        rw [j7 p (hin p (by simp)) hpl]
        exact w4
    · intro p hp hpl
      rw [List.mem_cons, not_or] at hpl
      rw [j7 p hp hpl.2]
      exact w5 p hp hpl.1

/-- the beginning of `fill_field` with a dependent parameter -/
private theorem filling_of (hnames : DistinctNames P.classes) (h : P.begin.parse P.host deck = some D)
    (heval : ∀ v e, DefinedBy D v e → e.eval P.host.ops D.state ≠ none) (hM : MapOf D M) {U : Updater} {σ : State K W}
    (hs : Session P.host.ops D M U σ) (hc : Coordinates D U slot) (hq : Handle D q) (hr : q.readOnly = false) :
    Filling P.host.ops D M slot σ q (U.clearDependent.addDependent σ q).1 (U.clearDependent.addDependent σ q).2 ∧
      (U.clearDependent.addDependent σ q).1.independent = U.independent ∧
      ∀ p ∈ (U.clearDependent.addDependent σ q).1.params, p = q := by
  have hD := read_of hnames h
  obtain ⟨x, hx⟩ : ∃ x, D.heap[q.var]? = some x := by
    obtain ⟨k, B, n, b, x, -, -, hx, -, hv, -⟩ := hq
    exact ⟨x, by rw [hv]; exact hx⟩
  have hS := Session.dependent q (.clear hs) hq hr
  obtain ⟨a1, a2⟩ := C141_constant_at_once P hnames deck D h heval M hM _ σ (.clear hs) q hq hr x hx
  have hi := session_inv hD hM (evals h heval) hs
  by_cases hf : x.fixed = true
  · obtain ⟨b1, b2, b3⟩ := a1 hf
    have hfx : σ.fixed q.var = true := by
      rw [hi.fixed, (state_some (by rw [withDummy_get (List.getElem?_eq_some_iff.mp hx).1]; exact hx)).2.1, hf]
    have he : ∀ y, y ≠ q.target → (U.clearDependent.addDependent σ q).2.ext y = σ.ext y := by
      intro y hy
      unfold Updater.addDependent Param.update
      rw [hfx, if_pos rfl, hr]
      simp [hy]
    refine ⟨⟨hS, ?_, ?_, ?_, .inr ⟨?_, ?_, x, hx, hf, b2.symm⟩⟩, ?_, ?_⟩
    · rw [b1]; exact hc
    · unfold Updater.addDependent Param.update
      rw [hr]
      split <;> rfl
    · intro p hp hpr _
      refine he _ fun ht => ?_
      rw [hD.inj p q hp hq ht, hr] at hpr
      simp at hpr
    · rw [b1]; rfl
    · rw [b2]; exact .constant hx hf
    · rw [b1]; rfl
    · rw [b1]; simp [Updater.clearDependent]
  · rw [Bool.not_eq_true] at hf
    obtain ⟨b1, b2⟩ := a2 hf
    have hfx : σ.fixed q.var = false := by
      rw [hi.fixed, (state_some (by rw [withDummy_get (List.getElem?_eq_some_iff.mp hx).1]; exact hx)).2.1, hf]
    have hI : (U.clearDependent.addDependent σ q).1.independent = U.independent := by
      unfold Updater.addDependent
      rw [hfx]
      rfl
    refine ⟨⟨hS, ?_, ?_, ?_, .inl b1⟩, hI, ?_⟩
    · intro i; rw [hI]; exact hc i
    · rw [b2]
    · intro p _ _ _; rw [b2]
    · unfold Updater.addDependent
      rw [hfx]
      simp [Updater.clearDependent]

/-- C142: `fill_field` with a parameter of the setup file gives every cell of the field, and no other element, the value that the file
gives to that parameter where the cell is. The updater can be used further. -/
theorem C142_fill_field_partial (P : Program K W) (hnames : DistinctNames P.classes) (deck : List (Stmt K)) (D : DeckState K W)
    (h : P.begin.parse P.host deck = some D) (heval : ∀ v e, DefinedBy D v e → e.eval P.host.ops D.state ≠ none)
    (M : DepMap) (hM : MapOf D M) (f : FieldShape K (n + 1)) (slot : Fin (n + 1) → ℕ) (hinj : Function.Injective slot)
    (s s' : FillState K W n) (hs : Session P.host.ops D M s.updater s.vars) (hc : Coordinates D s.updater slot)
    (q : Param) (hq : Handle D q) (hr : q.readOnly = false) (hg : Usable s.data) (hf : f.range = s.data.range)
    (l : List (Idx (n + 1))) (hl : f.range.IterLoop f.range.iterBegin l) (N : ℕ)
    (hu : fillFieldDependent P.host.ops D.withDummy.expr M N f slot q.target q l s = some s') :
    s'.data.range = s.data.range ∧
    (∀ p, InBox s.data.range.lo s.data.range.hi p →
      ∃ x, s'.data.get? p = some x ∧ ValueAtCell P.host.ops D f slot s.vars q.var p x) ∧
    Session P.host.ops D M s'.updater s'.vars ∧ s'.updater.independent = s.updater.independent ∧ (∀ p ∈ s'.updater.params, p = q) := by
  rw [hf] at hl
  obtain ⟨l', e1, hu'⟩ := C01_iterator_enumerates_range s.data.range hg.nonempty
  obtain rfl := (hu' l).mp hl
  obtain ⟨hF, hI, hp⟩ := filling_of hnames h heval hM hs hc hq hr
  obtain ⟨j1, j2, j3, j4, -, j6, -⟩ := fill hnames h heval hM hinj hq hr N s.vars l
    ⟨(s.updater.clearDependent.addDependent s.vars q).1, (s.updater.clearDependent.addDependent s.vars q).2, s.data⟩ s' hF hg
    (fun p hp => (e1.mem_iff p).mp hp) hu
  exact ⟨j4, fun p hp => j6 p ((e1.mem_iff p).mpr hp), j1.session, j2.trans hI, by rw [j3]; exact hp⟩

/-- C142: the same without naming the parameter again, for an updater that has it among its parameters. -/
theorem C142_fill_field_again_partial (P : Program K W) (hnames : DistinctNames P.classes) (deck : List (Stmt K)) (D : DeckState K W)
    (h : P.begin.parse P.host deck = some D) (heval : ∀ v e, DefinedBy D v e → e.eval P.host.ops D.state ≠ none)
    (M : DepMap) (hM : MapOf D M) (f : FieldShape K (n + 1)) (slot : Fin (n + 1) → ℕ) (hinj : Function.Injective slot)
    (s s' : FillState K W n) (hs : Session P.host.ops D M s.updater s.vars) (hc : Coordinates D s.updater slot)
    (q : Param) (hq : q ∈ s.updater.params) (hg : Usable s.data) (hf : f.range = s.data.range)
    (l : List (Idx (n + 1))) (hl : f.range.IterLoop f.range.iterBegin l) (N : ℕ)
    (hu : fillField P.host.ops D.withDummy.expr M N f slot q.target l s = some s') :
    s'.data.range = s.data.range ∧
    (∀ p, InBox s.data.range.lo s.data.range.hi p →
      ∃ x, s'.data.get? p = some x ∧ ValueAtCell P.host.ops D f slot s.vars q.var p x) ∧
    Session P.host.ops D M s'.updater s'.vars ∧ s'.updater.independent = s.updater.independent ∧
    s'.updater.params = s.updater.params := by
  rw [hf] at hl
  obtain ⟨l', e1, hu'⟩ := C01_iterator_enumerates_range s.data.range hg.nonempty
  obtain rfl := (hu' l).mp hl
  obtain ⟨hh, hr⟩ := (session_inv (read_of hnames h) hM (evals h heval) hs).params q hq
  obtain ⟨j1, j2, j3, j4, -, j6, -⟩ := fill hnames h heval hM hinj hh hr N s.vars l s s'
    ⟨hs, hc, rfl, fun _ _ _ _ => rfl, .inl hq⟩ hg (fun p hp => (e1.mem_iff p).mp hp) hu
  exact ⟨j4, fun p hp => j6 p ((e1.mem_iff p).mpr hp), j1.session, j2, j3⟩

/-- C142: if a formula cannot be evaluated in a cell, the cells before it are filled, the others unchanged, and the program can go on. -/
theorem C142_throws_partial (P : Program K W) (hnames : DistinctNames P.classes) (deck : List (Stmt K)) (D : DeckState K W)
    (h : P.begin.parse P.host deck = some D) (heval : ∀ v e, DefinedBy D v e → e.eval P.host.ops D.state ≠ none)
    (M : DepMap) (hM : MapOf D M) (f : FieldShape K (n + 1)) (slot : Fin (n + 1) → ℕ) (hinj : Function.Injective slot)
    (s s' : FillState K W n) (hs : Session P.host.ops D M s.updater s.vars) (hc : Coordinates D s.updater slot)
    (q : Param) (hq : q ∈ s.updater.params) (hg : Usable s.data) (hf : f.range = s.data.range)
    (l : List (Idx (n + 1))) (hl : f.range.IterLoop f.range.iterBegin l) (N : ℕ)
    (hu : fillThrow P.host.ops D.withDummy.expr M N f slot q.target l s = some s') :
    s'.data.range = s.data.range ∧
    (∃ l₁ a l₂, l = l₁ ++ a :: l₂ ∧
      (∀ p ∈ l₁, ∃ x, s'.data.get? p = some x ∧ ValueAtCell P.host.ops D f slot s.vars q.var p x) ∧
      ∀ p, InBox s.data.range.lo s.data.range.hi p → p ∉ l₁ → s'.data.get? p = s.data.get? p) ∧
    Session P.host.ops D M s'.updater s'.vars ∧ s'.updater.independent = s.updater.independent ∧
    s'.updater.params = s.updater.params := by
  rw [hf] at hl
  obtain ⟨l', e1, hu'⟩ := C01_iterator_enumerates_range s.data.range hg.nonempty
  obtain rfl := (hu' l).mp hl
  have hi := session_inv (read_of hnames h) hM (evals h heval) hs
  obtain ⟨hh, hr⟩ := hi.params q hq
  obtain ⟨l₁, a, l₂, s₁, rfl, h2, h3, h4⟩ := fillThrow_spec P.host.ops _ M N f slot q.target l s s' hu
  obtain ⟨j1, j2, j3, j4, -, j6, j7⟩ := fill hnames h heval hM hinj hh hr N s.vars l₁ s s₁
    ⟨hs, hc, rfl, fun _ _ _ _ => rfl, .inl hq⟩ hg (fun p hp => (e1.mem_iff p).mp (by simp [hp])) h2
  have hF := j1.move (f := f) hnames h heval hM hinj hh hr a
  have hi1 := session_inv (read_of hnames h) hM (evals h heval) hF.session
  obtain ⟨-, k1, k2, k3, -⟩ := (Lemma.Dep.history_inv hi1.history).failed N h3
  rw [h4]
  exact ⟨j4, ⟨l₁, a, l₂, rfl, j6, j7⟩, .failed N hF.session h3, k1.trans j2, k3.trans j3⟩

end

end Schnek.Props
