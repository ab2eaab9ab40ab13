import Verif.Lemma.SubGridShared
import Verif.Props.SubGrid

/-!
# Two sub-grids of the same grid

C133
-/

namespace Schnek.Props

open Spec Lemma.SubGrid

variable {T : Type} {n : ℕ}

private theorem create_eq' (P Q : Policy) (lo hi : Idx (n + 1)) (g : Grid T n) (s : SubGrid n) (h : SubGrid.create P Q lo hi g = some s) :
    s = ⟨P, Q, true, ⟨lo, hi⟩, fun d => hi d - lo d + 1⟩ := by
  simp only [SubGrid.create, Option.bind_eq_some_iff, Option.map_eq_some_iff] at h
  obtain ⟨_, _, _, _, h⟩ := h
  exact h.symm

/-- **C133** `+=` and `-=` (any `op`) of two sub-grids of one grid, of the same size, which have no cell in common, or which are
the same, or of which the second starts at an index that comes later in the order of the iteration: each cell of the first domain is
combined with what the cell of the second at the same place relative to the lower corners held before the operation; no other cell
changes. Missing: a second window that overlaps and starts earlier (below). -/
theorem C133_op_assign_partial (op : T → T → T) (P Q P2 Q2 : Policy) (lo hi lo2 hi2 : Idx (n + 1)) (g₀ h₀ g : Grid T n)
    (s s2 : SubGrid n) (hs : SubGrid.create P Q lo hi g₀ = some s) (hs2 : SubGrid.create P2 Q2 lo2 hi2 h₀ = some s2)
    (hg : Usable g) (h : Inside lo hi g) (h2 : Inside lo2 hi2 g) (hsize : ∀ i, s2.dims i = s.dims i)
    (hord : (∀ p, ¬ (InBox lo hi p ∧ InBox lo2 hi2 p)) ∨ lo2 = lo ∨ LexLt lo lo2)
    (l l2 : List (Idx (n + 1))) (hl : s.domain.IterLoop s.domain.iterBegin l) (hl2 : s2.domain.IterLoop s2.domain.iterBegin l2) :
    ∃ g', s.opAssignSame op s2 l l2 g = some g' ∧ g'.range = g.range ∧ Usable g' ∧
      (∀ p, InBox lo hi p → ∀ x y, g.get? p = some x → g.get? (fun i => p i - lo i + lo2 i) = some y →
        g'.get? p = some (op x y)) ∧
      ∀ p, InBox g.range.lo g.range.hi p → ¬ InBox lo hi p → g'.get? p = g.get? p := by
  obtain rfl := create_eq' P Q lo hi g₀ s hs
  obtain rfl := create_eq' P2 Q2 lo2 hi2 h₀ s2 hs2
  have hne : ∀ i, lo i ≤ hi i := fun i => (h i).2.1
  have hne2 : ∀ i, lo2 i ≤ hi2 i := fun i => (h2 i).2.1
  have hin : ∀ p, InBox lo hi p → InBox g.range.lo g.range.hi p := fun p hp i => by
    have := h i; have := hp i; constructor <;> omega
  have hin2 : ∀ p, InBox lo2 hi2 p → InBox g.range.lo g.range.hi p := fun p hp i => by
    have := h2 i; have := hp i; constructor <;> omega
  obtain ⟨l', e1, hu⟩ := C01_iterator_enumerates_range (⟨lo, hi⟩ : Range (n + 1)) hne
  obtain ⟨l2', e2, hu2⟩ := C01_iterator_enumerates_range (⟨lo2, hi2⟩ : Range (n + 1)) hne2
  rw [(hu l).mp hl, (hu2 l2).mp hl2]
  have hsz : ∀ i, hi2 i - lo2 i = hi i - lo i := fun i => by have := hsize i; simp only at this; omega
  rw [enumerates_shift hsz e1 e2]
  have hsh : ∀ p, InBox lo hi p → InBox lo2 hi2 (fun i => p i + (lo2 i - lo i)) := fun p hp i => by
    have := hp i
    have := hsz i
    simp only
    constructor <;> omega
  have hpw : l'.Pairwise (fun p q => (fun i => q i + (lo2 i - lo i)) ≠ p) := by
    refine e1.sorted.imp_of_mem ?_
    intro p q hp hq hlt heq
    rcases hord with hd | he | hlex
    · refine hd p ⟨(e1.mem_iff p).mp hp, ?_⟩
      rw [← heq]
      exact hsh q ((e1.mem_iff q).mp hq)
    · subst he
      have : q = p := by rw [← heq]; funext i; omega
      subst this
      exact lex_asymm _ _ hlt hlt
    · obtain ⟨k, a, b⟩ := hlex
      refine lex_asymm p q hlt ⟨k, fun j hj => ?_, ?_⟩
      · rw [← heq]; have := a j hj; simp only; omega
      · rw [← heq]; simp only; omega
  obtain ⟨g', i1, i2, i3, i4, i5⟩ := opLoopSame_spec op (⟨P, Q, true, ⟨lo, hi⟩, fun d => hi d - lo d + 1⟩ : SubGrid n)
    (⟨P2, Q2, true, ⟨lo2, hi2⟩, fun d => hi2 d - lo2 d + 1⟩ : SubGrid n) rfl rfl hne hne2
    (fun p i => p i + (lo2 i - lo i)) l' g hg hin hin2
    (fun p hp => (e1.mem_iff p).mp hp) (fun p hp => hsh p ((e1.mem_iff p).mp hp)) e1.nodup hpw
  have hel := element_some (⟨P, Q, true, ⟨lo, hi⟩, fun d => hi d - lo d + 1⟩ : SubGrid n) g hg rfl lo
    (hin lo fun i => ⟨le_rfl, hne i⟩)
  have hel2 := element_some (⟨P2, Q2, true, ⟨lo2, hi2⟩, fun d => hi2 d - lo2 d + 1⟩ : SubGrid n) g hg rfl lo2
    (hin2 lo2 fun i => ⟨le_rfl, hne2 i⟩)
  refine ⟨g', by simp [SubGrid.opAssignSame, hel, hel2, i1], i2, i3, fun p hp x y hx hy => ?_,
    fun p hp hn => i5 p hp fun hc => hn ((e1.mem_iff p).mp hc)⟩
  refine i4 p ((e1.mem_iff p).mpr hp) x y hx ?_
  rw [← hy]
  congr 1
  funext i
  omega

/-- **C133** `+=` and `-=` of a sub-grid and its own base grid: every cell of the domain is combined with itself, once. -/
theorem C133_op_assign_base (op : T → T → T) (P Q : Policy) (lo hi : Idx (n + 1)) (g₀ g : Grid T n)
    (s : SubGrid n) (hs : SubGrid.create P Q lo hi g₀ = some s) (hg : Usable g) (h : Inside lo hi g)
    (l : List (Idx (n + 1))) (hl : s.domain.IterLoop s.domain.iterBegin l) :
    ∃ g', s.opAssignBase op l g = some g' ∧ g'.range = g.range ∧ Usable g' ∧
      (∀ p, InBox lo hi p → ∀ x, g.get? p = some x → g'.get? p = some (op x x)) ∧
      ∀ p, InBox g.range.lo g.range.hi p → ¬ InBox lo hi p → g'.get? p = g.get? p := by
  obtain rfl := create_eq' P Q lo hi g₀ s hs
  have hne : ∀ i, lo i ≤ hi i := fun i => (h i).2.1
  obtain ⟨l', e1, hu⟩ := C01_iterator_enumerates_range (⟨lo, hi⟩ : Range (n + 1)) hne
  rw [(hu l).mp hl]
  obtain ⟨g', i1, i2, i3, i4, i5⟩ := opBase_spec op (⟨P, Q, true, ⟨lo, hi⟩, fun d => hi d - lo d + 1⟩ : SubGrid n) rfl l' g hg
    (fun p (hp : InBox lo hi p) i => by have := h i; have := hp i; constructor <;> omega) (fun p hp => (e1.mem_iff p).mp hp) e1.nodup
  exact ⟨g', i1, i2, i3, fun p hp x hx => i4 p ((e1.mem_iff p).mpr hp) x hx,
    fun p hp hn => i5 p hp fun hc => hn ((e1.mem_iff p).mp hc)⟩

/-- **C133 is false for windows that overlap when the second starts earlier**: the cells 1 to 3 of a grid with the values 10, 20, 30,
40 to which the cells 0 to 2 are added become 30, 60, 100, not 30, 50, 70. -/
theorem C133_violated_backward :
    let g : Grid ℤ 0 := Grid.create .c ⟨![0], ![3]⟩ (fun k => 10 * (k : ℤ) + 10)
    ∃ s s2, SubGrid.create .noArg .noArg ![1] ![3] g = some s ∧ SubGrid.create .noArg .noArg ![0] ![2] g = some s2 ∧
      s.domain.IterLoop s.domain.iterBegin [![1], ![2], ![3]] ∧ s2.domain.IterLoop s2.domain.iterBegin [![0], ![1], ![2]] ∧
      (∀ k : Fin 4, g.get? ![(k : ℤ)] = some (10 * (k : ℤ) + 10)) ∧
      ∃ g', s.opAssignSame (· + ·) s2 [![1], ![2], ![3]] [![0], ![1], ![2]] g = some g' ∧ g'.get? ![1] = some 30 ∧
        g'.get? ![2] = some 60 ∧ g'.get? ![3] = some 100 := by
  intro g
  have loop : ∀ (lo : Idx 1) (hi : Idx 1) (l : List (Idx 1)), (∀ i, lo i ≤ hi i) → Enumerates LexLt (InBox lo hi) l →
      (⟨lo, hi⟩ : Range 1).IterLoop (⟨lo, hi⟩ : Range 1).iterBegin l := by
    intro lo hi l hne he
    obtain ⟨l', e, hu⟩ := C01_iterator_enumerates_range (⟨lo, hi⟩ : Range 1) hne
    exact (hu l).mpr (enumerates_unique he e)
  have box : ∀ (a : ℤ), Enumerates LexLt (InBox (![a] : Idx 1) ![a + 2]) [![a], ![a + 1], ![a + 2]] := by
    intro a
    have lt : ∀ x y : ℤ, x < y → LexLt (![x] : Idx 1) ![y] := fun x y hxy =>
      ⟨0, fun j hj => absurd hj (by simp), by simpa using hxy⟩
    refine ⟨?_, fun p => ?_, ?_⟩
    · simp only [List.pairwise_cons, List.mem_cons, List.not_mem_nil, or_false, forall_eq_or_imp, forall_eq, IsEmpty.forall_iff,
        implies_true, List.Pairwise.nil, and_true]
      exact ⟨⟨lt _ _ (by omega), lt _ _ (by omega)⟩, lt _ _ (by omega)⟩
    · have key : ∀ x : ℤ, p = ![x] ↔ p 0 = x := fun x =>
        ⟨fun h => by rw [h]; rfl, fun h => by funext i; rw [Subsingleton.elim i 0, h]; rfl⟩
      simp only [List.mem_cons, List.not_mem_nil, or_false, key]
      constructor
      · intro h i
        rw [Subsingleton.elim i 0]
        simp only [Matrix.cons_val_zero]
        omega
      · intro h
        have := h 0
        simp only [Matrix.cons_val_zero] at this
        omega
    · have ne : ∀ x y : ℤ, x ≠ y → (![x] : Idx 1) ≠ ![y] := fun x y hxy hc => hxy (by simpa using congrFun hc 0)
      simp only [List.nodup_cons, List.mem_cons, List.not_mem_nil, or_false, not_or, not_false_eq_true, List.nodup_nil, and_true]
      exact ⟨⟨ne _ _ (by omega), ne _ _ (by omega)⟩, ne _ _ (by omega)⟩
  refine ⟨⟨.noArg, .noArg, true, ⟨![1], ![3]⟩, _⟩, ⟨.noArg, .noArg, true, ⟨![0], ![2]⟩, _⟩, rfl, rfl, ?_, ?_, by decide +kernel, ?_⟩
  · exact loop _ _ _ (by decide) (box 1)
  · exact loop _ _ _ (by decide) (box 0)
  · refine ⟨(SubGrid.opAssignSame (· + ·) ⟨.noArg, .noArg, true, ⟨![1], ![3]⟩, fun d => ![3] d - ![1] d + 1⟩
      ⟨.noArg, .noArg, true, ⟨![0], ![2]⟩, fun d => ![2] d - ![0] d + 1⟩ [![1], ![2], ![3]] [![0], ![1], ![2]] g).get (by decide +kernel), ?_, ?_⟩
    · exact (Option.some_get _).symm
    · decide +kernel

/-! ## examples -/

/-- the lower ghost cells of a grid and the inner cells next to the upper ones (no cell in common), and two windows that overlap of
which the second starts later -/
example :
    let g : Grid ℤ 1 := Grid.create .c ⟨![0, 0], ![5, 5]⟩ (fun k => (k : ℤ))
    Usable g ∧ Inside ![0, 0] ![0, 5] g ∧ Inside ![4, 0] ![4, 5] g ∧
      (∀ p, ¬ (InBox (![0, 0] : Idx 2) ![0, 5] p ∧ InBox (![4, 0] : Idx 2) ![4, 5] p)) ∧
      (∃ s s2, SubGrid.create .noArg .noArg ![0, 0] ![0, 5] g = some s ∧ SubGrid.create .noArg .noArg ![4, 0] ![4, 5] g = some s2 ∧
        ∀ i, s2.dims i = s.dims i) ∧
      Inside ![1, 1] ![3, 3] g ∧ Inside ![2, 0] ![4, 2] g ∧ LexLt (![1, 1] : Idx 2) ![2, 0] := by
  intro g
  refine ⟨C07_create _ _ _ (by decide) (by decide), by show ∀ i, _; decide, by show ∀ i, _; decide, ?_, ⟨_, _, rfl, rfl, by decide⟩,
    by show ∀ i, _; decide, by show ∀ i, _; decide, ⟨0, by decide, by decide⟩⟩
  rintro p ⟨h1, h2⟩
  have a := h1 0
  have b := h2 0
  simp only [Matrix.cons_val_zero] at a b
  omega

end Schnek.Props
