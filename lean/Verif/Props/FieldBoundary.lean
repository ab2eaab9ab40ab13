import Verif.Props.SubGrid

/-!
# C104: the boundary cells of a field, C49: sub-grids of a given size
-/

namespace Schnek.Props

open Spec Lemma.SubGrid

variable {T : Type} {n : ℕ}

/-- **C49** A sub-grid made with a size is the window of that size that begins at 0. -/
theorem C49_create_size (P Q : Policy) (size : Idx (n + 1)) (g : Grid T n) (hs : ∀ i, 1 ≤ size i)
    (hg : ∀ i, g.range.lo i ≤ 0 ∧ size i - 1 ≤ g.range.hi i) :
    ∃ s, SubGrid.createSize P Q size g = some s ∧ Inside s.domain.lo s.domain.hi g ∧ s.dims = size ∧
      ∀ p, InBox s.domain.lo s.domain.hi p ↔ ∀ i, 0 ≤ p i ∧ p i < size i := by
  have hI : Inside (fun _ => 0) (fun d => size d - 1) g := fun i => by
    have := hs i
    have := hg i
    beta_reduce
    omega
  obtain ⟨s, h1, h2, h3, h4⟩ := C49_create P Q _ _ g hI
  refine ⟨s, h1, by rw [h2, h3]; exact hI, funext fun i => by rw [h4]; omega, fun p => ?_⟩
  rw [h2, h3]
  exact forall_congr' fun i => by beta_reduce; omega

/-- the cells a user gets for the boundary of a field: the ghost cells of that side, without the layer next to the inner cells on the
lower side if the field is staggered -/
def BoundaryCell (B : Boundary (n + 1)) (d : Fin (n + 1)) (b : Bound) (stagger : Bool) (p : Idx (n + 1)) : Prop :=
  InBox B.size.lo B.size.hi p ∧
    match b, stagger with
    | .min, false => p d < B.size.lo d + B.delta
    | .min, true => p d < B.size.lo d + B.delta - 1
    | .max, _ => B.size.hi d - B.delta < p d

/-- **C104** `getGhostBoundary` for a field returns a sub-grid of exactly the boundary cells of that side, and assigning a value to it
sets these and no other. Missing: a staggered field with one layer of ghost cells, on the lower side (below). -/
theorem C104_field_boundary_partial (B : Boundary (n + 1)) (P Q : Policy) (d : Fin (n + 1)) (b : Bound) (stagger : Bool) (g : Grid T n)
    (hg : Usable g) (hr : g.range = B.size) (hδ : 1 ≤ B.delta) (hst : b = .min → stagger = true → 2 ≤ B.delta)
    (hin : ∀ i, B.size.lo i + B.delta ≤ B.size.hi i - B.delta) (v : T) :
    ∃ s, SubGrid.fieldBoundary B P Q d b stagger g = some s ∧
      (∀ p, InBox s.domain.lo s.domain.hi p ↔ BoundaryCell B d b stagger p) ∧
      (∃! l, s.domain.IterLoop s.domain.iterBegin l) ∧
      ∀ l, s.domain.IterLoop s.domain.iterBegin l → ∃ g', s.fill v l g = some g' ∧ g'.range = g.range ∧ Usable g' ∧
        (∀ p, BoundaryCell B d b stagger p → g'.get? p = some v) ∧
        ∀ p, InBox g.range.lo g.range.hi p → ¬ BoundaryCell B d b stagger p → g'.get? p = g.get? p := by
  have hI : Inside (B.boundaryDomain d b stagger).lo (B.boundaryDomain d b stagger).hi g := by
    intro i
    rw [hr]
    have := hin i
    cases b <;> cases stagger <;> simp only [Boundary.boundaryDomain] <;> by_cases hi : i = d <;> (try subst hi)
    all_goals (try simp only [Function.update_self])
    all_goals (try simp only [Function.update_of_ne hi])
    all_goals (try simp only [forall_const] at hst)
    all_goals (try simp)
    all_goals omega
  have hcell : ∀ p, InBox (B.boundaryDomain d b stagger).lo (B.boundaryDomain d b stagger).hi p ↔ BoundaryCell B d b stagger p := by
    intro p
    have hd := hin d
    unfold BoundaryCell
    constructor
    · intro hp
      have hpd := hp d
      refine ⟨fun i => ?_, ?_⟩
      · have hpi := hp i
        have h0 := hin i
        clear hin hp hI
        cases b <;> cases stagger <;> by_cases hi : i = d <;> (try subst hi) <;>
          simp_all [Boundary.boundaryDomain, Function.update_of_ne] <;> omega
      · cases b <;> cases stagger <;> simp_all [Boundary.boundaryDomain] <;> omega
    · rintro ⟨hp, hlt⟩ i
      have hpi := hp i
      cases b <;> cases stagger <;> by_cases hi : i = d <;> (try subst hi) <;>
        simp_all [Boundary.boundaryDomain, Function.update_of_ne] <;> omega
  obtain ⟨s, h1, h2, h3, -⟩ := C49_create P Q _ _ g hI
  obtain ⟨h5, h6⟩ := C49_fill P Q _ _ g g s h1 hg hI v
  refine ⟨s, h1, ?_, h5, ?_⟩
  · rw [h2, h3]
    exact hcell
  · intro l hl
    obtain ⟨g', i1, i2, i3, i4, i5⟩ := h6 l hl
    exact ⟨g', i1, i2, i3, fun p hp => i4 p ((hcell p).mpr hp), fun p hp hn => i5 p hp fun hc => hn ((hcell p).mp hc)⟩

/-- non-vacuity: a field of 10 cells with two layers of ghost cells -/
example : let B : Boundary 1 := ⟨⟨![-2], ![11]⟩, 2⟩
    (∀ i, B.size.lo i + B.delta ≤ B.size.hi i - B.delta) ∧ 2 ≤ B.delta ∧ BoundaryCell B 0 .min true ![-2] ∧
    ¬ BoundaryCell B 0 .min true ![-1] ∧ BoundaryCell B 0 .min false ![-1] ∧ BoundaryCell B 0 .max true ![10] := by
  simp [BoundaryCell, InBox]

private theorem fillLoop_domain (s s' : SubGrid n) (ha : s.attached = s'.attached) (hl : s.domain.lo = s'.domain.lo) (v : T)
    (l : List (Idx (n + 1))) (g : Grid T n) : s.fillLoop v l g = s'.fillLoop v l g := by
  induction l generalizing g with
  | nil => rfl
  | cons a l ih =>
      unfold SubGrid.fillLoop
      have h1 : s.nextPos l = s'.nextPos l := by cases l <;> simp [SubGrid.nextPos, hl]
      have h2 : ∀ (g : Grid T n) p, s.element g p = s'.element g p := fun g p => by simp [SubGrid.element, ha]
      simp only [h1, h2, ih]

/-- **C104 is false** for a staggered field with a single layer of ghost cells, on the lower side: there are no boundary cells, so
the sub-grid should be empty. With assertions the program aborts; with the default policies an empty sub-grid is returned, but assigning
a value to it sets the whole layer of ghost cells. -/
theorem C104_violated_single_layer (B : Boundary (n + 1)) (Q : Policy) (d : Fin (n + 1)) (g : Grid T n) (hg : Usable g)
    (hr : g.range = B.size) (hδ : B.delta = 1) (hin : ∀ i, B.size.lo i + B.delta ≤ B.size.hi i - B.delta) (v : T) :
    (∀ p, ¬ BoundaryCell B d .min true p) ∧
    SubGrid.fieldBoundary B .asserting Q d .min true g = none ∧
    ∃ s, SubGrid.fieldBoundary B .noArg Q d .min true g = some s ∧
      ∀ l, s.domain.IterLoop s.domain.iterBegin l → ∃ g', s.fill v l g = some g' ∧
        ∀ p, InBox B.size.lo B.size.hi p → p d = B.size.lo d → g'.get? p = some v := by
  have hlo : (B.boundaryDomain d .min true).lo = B.size.lo := rfl
  have hhi : (B.boundaryDomain d .min true).hi = Function.update B.size.hi d (B.size.lo d - 1) := by
    simp [Boundary.boundaryDomain, hδ]
  have hle : ∀ i, B.size.lo i ≤ B.size.hi i := fun i => by have := hin i; omega
  refine ⟨?_, ?_, ?_⟩
  · rintro p ⟨h1, h2⟩
    have := h1 d
    simp only [hδ] at h2
    omega
  · unfold SubGrid.fieldBoundary SubGrid.create
    rw [check_inside .asserting _ _ _ (by rw [hlo, hr]; exact fun i => ⟨le_rfl, hle i⟩), Option.bind_some]
    have : Policy.check .asserting (B.boundaryDomain d .min true).hi g.range.lo g.range.hi = none := by
      rw [hhi, hr]
      refine (C08_assert _ _ _).2 fun h => ?_
      have := (h d).1
      simp at this
    rw [this]
    rfl
  · refine ⟨⟨.noArg, Q, true, B.boundaryDomain d .min true, fun i => (B.boundaryDomain d .min true).hi i - (B.boundaryDomain d .min true).lo i + 1⟩, ?_, ?_⟩
    · rfl
    · intro l hl
      dsimp only at hl
      obtain ⟨l', h1, h2⟩ := C03_iterator_any_range_partial (B.boundaryDomain d .min true)
      obtain rfl := (h2 l).mp hl
      set s : SubGrid n := ⟨.noArg, Q, true, B.boundaryDomain d .min true, fun i => (B.boundaryDomain d .min true).hi i - (B.boundaryDomain d .min true).lo i + 1⟩ with hs
      let M : Idx (n + 1) := fun i => max ((B.boundaryDomain d .min true).lo i) ((B.boundaryDomain d .min true).hi i)
      let s' : SubGrid n := { s with domain := ⟨B.size.lo, M⟩ }
      have hM : ∀ i, B.size.lo i ≤ M i ∧ M i ≤ B.size.hi i := by
        intro i
        refine ⟨le_max_left _ _, max_le (hle i) ?_⟩
        rw [hhi]
        by_cases hi : i = d
        · subst hi
          have := hle i
          simp
          omega
        · simp [hi]
      obtain ⟨g', i1, i2, i3, i4, i5⟩ := fillLoop_spec s' v rfl (fun i => (hM i).1) l g hg
        (fun p hp i => by rw [hr]; exact ⟨(hp i).1, (hp i).2.trans (hM i).2⟩) (fun p hp => (h1.mem_iff p).mp hp)
      have hel : s.element g s.domain.lo = some s.domain.lo := element_some s g hg rfl _ (by rw [hr]; exact fun i => ⟨le_rfl, hle i⟩)
      refine ⟨g', ?_, ?_⟩
      · simp only [SubGrid.fill, hel]
        rw [← i1]
        exact fillLoop_domain s s' rfl rfl v l g
      · intro p hp hpd
        refine i4 p ((h1.mem_iff p).mpr fun i => ?_)
        refine ⟨(hp i).1, ?_⟩
        by_cases hi : i = d
        · subst hi
          exact hpd.le.trans (le_max_left _ _)
        · refine le_trans (hp i).2 (le_trans ?_ (le_max_right _ _))
          rw [hhi]
          simp [hi]

end Schnek.Props
