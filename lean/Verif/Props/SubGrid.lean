import Verif.Lemma.SubGrid

/-!
# Sub-grids and transformed grids

C49, C74, C75, C73
-/

namespace Schnek.Props

open Spec Lemma.SubGrid

variable {T T2 : Type} {n : ℕ}

/-- The box with corners `lo` and `hi` is not empty and lies in the grid. -/
def Inside (lo hi : Idx (n + 1)) (g : Grid T n) : Prop :=
  ∀ i, g.range.lo i ≤ lo i ∧ lo i ≤ hi i ∧ hi i ≤ g.range.hi i

private theorem inside_sub {lo hi : Idx (n + 1)} {g : Grid T n} (h : Inside lo hi g) (p : Idx (n + 1)) (hp : InBox lo hi p) :
    InBox g.range.lo g.range.hi p := fun i => by
  have := h i; have := hp i; constructor <;> omega

private theorem create_eq (P Q : Policy) (lo hi : Idx (n + 1)) (g : Grid T n) (s : SubGrid n) (h : SubGrid.create P Q lo hi g = some s) :
    s = ⟨P, Q, true, ⟨lo, hi⟩, fun d => hi d - lo d + 1⟩ := by
  simp only [SubGrid.create, Option.bind_eq_some_iff, Option.map_eq_some_iff] at h
  obtain ⟨_, _, _, _, h⟩ := h
  exact h.symm

/-- **C49** A sub-grid of a non-empty part of a grid can be created with every checking policy. -/
theorem C49_create (P Q : Policy) (lo hi : Idx (n + 1)) (g : Grid T n) (h : Inside lo hi g) :
    ∃ s, SubGrid.create P Q lo hi g = some s ∧ s.domain.lo = lo ∧ s.domain.hi = hi ∧ ∀ i, s.dims i = hi i - lo i + 1 := by
  refine ⟨⟨P, Q, true, ⟨lo, hi⟩, fun d => hi d - lo d + 1⟩, ?_, rfl, rfl, fun _ => rfl⟩
  rw [SubGrid.create, check_inside P lo _ _ fun i => by have := h i; constructor <;> omega, Option.bind_some,
    check_inside P hi _ _ fun i => by have := h i; constructor <;> omega, Option.map_some]

/-- **C49** At an index of its domain a sub-grid reads what the base grid holds there, and writing changes that cell of the base
grid and no other. -/
theorem C49_window (P Q : Policy) (lo hi : Idx (n + 1)) (g₀ g : Grid T n) (s : SubGrid n) (hs : SubGrid.create P Q lo hi g₀ = some s)
    (hg : Usable g) (h : Inside lo hi g) (p : Idx (n + 1)) (hp : InBox lo hi p) (v : T) :
    (∃ x, s.read g p = some x ∧ g.get? p = some x) ∧
    ∃ g', s.write g p v = some g' ∧ g'.range = g.range ∧ Usable g' ∧ g'.get? p = some v ∧ s.read g' p = some v ∧
      ∀ q, InBox g.range.lo g.range.hi q → q ≠ p → g'.get? q = g.get? q := by
  obtain rfl := create_eq P Q lo hi g₀ s hs
  obtain ⟨x, hx⟩ := C07_read_defined g hg p (inside_sub h p hp)
  obtain ⟨g', h1, h2, h3, h4, h5⟩ := C07_write_read g hg p (inside_sub h p hp) v
  have c1 := check_inside P p lo hi hp
  have c2 := check_inside Q p lo hi hp
  refine ⟨⟨x, ?_, hx⟩, g', ?_, h2, h3, h4, ?_, h5⟩
  · simp [SubGrid.read, SubGrid.index, c1, c2, hx]
  · simp [SubGrid.write, SubGrid.index, c1, c2, h1]
  · simp [SubGrid.read, SubGrid.index, c1, c2, h4]

/-- **C49** Any sequence of writes through the sub-grid, at indices of its domain, does what the same writes to the base grid do. -/
theorem C49_write_history (P Q : Policy) (lo hi : Idx (n + 1)) (g₀ g : Grid T n) (s : SubGrid n)
    (hs : SubGrid.create P Q lo hi g₀ = some s) (ws : List (Idx (n + 1) × T)) (hws : ∀ w ∈ ws, InBox lo hi w.1) :
    ws.foldlM (fun g w => s.write g w.1 w.2) g = ws.foldlM (fun (g : Grid T n) w => g.set? w.1 w.2) g := by
  obtain rfl := create_eq P Q lo hi g₀ s hs
  induction ws generalizing g with
  | nil => rfl
  | cons w ws ih =>
    have hw := hws w (by simp)
    rw [List.foldlM_cons, List.foldlM_cons]
    have : SubGrid.write ⟨P, Q, true, ⟨lo, hi⟩, fun d => hi d - lo d + 1⟩ g w.1 w.2 = g.set? w.1 w.2 := by
      simp [SubGrid.write, SubGrid.index, check_inside P w.1 lo hi hw, check_inside Q w.1 lo hi hw]
    rw [this]
    cases g.set? w.1 w.2 with
    | none => rfl
    | some g' => exact ih g' fun w hw => hws w (by simp [hw])

/-- **C49** Assigning a value to the sub-grid sets the cells of its domain, and only these. `l` are the positions of the iterator of
the domain; there is exactly one such list. -/
theorem C49_fill (P Q : Policy) (lo hi : Idx (n + 1)) (g₀ g : Grid T n) (s : SubGrid n) (hs : SubGrid.create P Q lo hi g₀ = some s)
    (hg : Usable g) (h : Inside lo hi g) (v : T) :
    (∃! l, s.domain.IterLoop s.domain.iterBegin l) ∧
    ∀ l, s.domain.IterLoop s.domain.iterBegin l → ∃ g', s.fill v l g = some g' ∧ g'.range = g.range ∧ Usable g' ∧
      (∀ p, InBox lo hi p → g'.get? p = some v) ∧
      ∀ p, InBox g.range.lo g.range.hi p → ¬ InBox lo hi p → g'.get? p = g.get? p := by
  obtain rfl := create_eq P Q lo hi g₀ s hs
  have hne : ∀ i, lo i ≤ hi i := fun i => (h i).2.1
  obtain ⟨l, hl, hu⟩ := C01_iterator_enumerates_range (⟨lo, hi⟩ : Range (n + 1)) hne
  refine ⟨⟨l, (hu l).mpr rfl, fun l' hl' => (hu l').mp hl'⟩, fun l' hl' => ?_⟩
  rw [(hu l').mp hl']
  obtain ⟨g', i1, i2, i3, i4, i5⟩ := fillLoop_spec (⟨P, Q, true, ⟨lo, hi⟩, fun d => hi d - lo d + 1⟩ : SubGrid n) v rfl hne l g hg
    (fun p hp => inside_sub h p hp) (fun p hp => (hl.mem_iff p).mp hp)
  have hel := element_some (⟨P, Q, true, ⟨lo, hi⟩, fun d => hi d - lo d + 1⟩ : SubGrid n) g hg rfl lo
    (inside_sub h lo fun i => ⟨le_rfl, hne i⟩)
  exact ⟨g', by simp [SubGrid.fill, hel, i1], i2, i3, fun p hp => i4 p ((hl.mem_iff p).mpr hp),
    fun p hp hn => i5 p hp fun hc => hn ((hl.mem_iff p).mp hc)⟩

/-- **C49** `+=` and `-=` (any `op`) of two sub-grids of different grids, of the same size: each cell of the first domain is combined
with the cell of the second at the same place relative to the lower corners; no other cell changes. -/
theorem C49_op_assign (op : T → T2 → T) (P Q P2 Q2 : Policy) (lo hi lo2 hi2 : Idx (n + 1)) (g₀ g : Grid T n) (h₀ g2 : Grid T2 n)
    (s s2 : SubGrid n) (hs : SubGrid.create P Q lo hi g₀ = some s) (hs2 : SubGrid.create P2 Q2 lo2 hi2 h₀ = some s2)
    (hg : Usable g) (hg2 : Usable g2) (h : Inside lo hi g) (h2 : Inside lo2 hi2 g2) (hsize : ∀ i, s2.dims i = s.dims i)
    (l l2 : List (Idx (n + 1))) (hl : s.domain.IterLoop s.domain.iterBegin l) (hl2 : s2.domain.IterLoop s2.domain.iterBegin l2) :
    ∃ g', s.opAssign op s2 g2 l l2 g = some g' ∧ g'.range = g.range ∧ Usable g' ∧
      (∀ p, InBox lo hi p → ∀ x y, g.get? p = some x → g2.get? (fun i => p i - lo i + lo2 i) = some y →
        g'.get? p = some (op x y)) ∧
      ∀ p, InBox g.range.lo g.range.hi p → ¬ InBox lo hi p → g'.get? p = g.get? p := by
  obtain rfl := create_eq P Q lo hi g₀ s hs
  obtain rfl := create_eq P2 Q2 lo2 hi2 h₀ s2 hs2
  have hne : ∀ i, lo i ≤ hi i := fun i => (h i).2.1
  have hne2 : ∀ i, lo2 i ≤ hi2 i := fun i => (h2 i).2.1
  obtain ⟨l', e1, hu⟩ := C01_iterator_enumerates_range (⟨lo, hi⟩ : Range (n + 1)) hne
  obtain ⟨l2', e2, hu2⟩ := C01_iterator_enumerates_range (⟨lo2, hi2⟩ : Range (n + 1)) hne2
  rw [(hu l).mp hl, (hu2 l2).mp hl2]
  have hsz : ∀ i, hi2 i - lo2 i = hi i - lo i := fun i => by have := hsize i; simp only at this; omega
  rw [enumerates_shift hsz e1 e2]
  obtain ⟨g', i1, i2, i3, i4, i5⟩ := opLoop_spec op (⟨P, Q, true, ⟨lo, hi⟩, fun d => hi d - lo d + 1⟩ : SubGrid n)
    (⟨P2, Q2, true, ⟨lo2, hi2⟩, fun d => hi2 d - lo2 d + 1⟩ : SubGrid n) g2 hg2 rfl rfl hne hne2
    (fun p hp => inside_sub h2 p hp) (fun p i => p i + (lo2 i - lo i)) l' g hg (fun p hp => inside_sub h p hp)
    (fun p hp => (e1.mem_iff p).mp hp) (fun p hp i => by
      have h3 : lo i ≤ p i ∧ p i ≤ hi i := (e1.mem_iff p).mp hp i
      have := hsz i
      simp only
      constructor <;> omega) e1.nodup
  have hel := element_some (⟨P, Q, true, ⟨lo, hi⟩, fun d => hi d - lo d + 1⟩ : SubGrid n) g hg rfl lo
    (inside_sub h lo fun i => ⟨le_rfl, hne i⟩)
  have hel2 := element_some (⟨P2, Q2, true, ⟨lo2, hi2⟩, fun d => hi2 d - lo2 d + 1⟩ : SubGrid n) g2 hg2 rfl lo2
    (inside_sub h2 lo2 fun i => ⟨le_rfl, hne2 i⟩)
  refine ⟨g', by simp [SubGrid.opAssign, hel, hel2, i1], i2, i3, fun p hp x y hx hy => ?_,
    fun p hp hn => i5 p hp fun hc => hn ((e1.mem_iff p).mp hc)⟩
  refine i4 p ((e1.mem_iff p).mpr hp) x y hx ?_
  rw [← hy]
  congr 1
  funext i
  omega

/-- **C49** `+=` and `-=` (any `op`) of a sub-grid and another grid that contains its domain: the same index in both. -/
theorem C49_op_assign_grid (op : T → T2 → T) (P Q : Policy) (lo hi : Idx (n + 1)) (g₀ g : Grid T n) (g2 : Grid T2 n)
    (s : SubGrid n) (hs : SubGrid.create P Q lo hi g₀ = some s) (hg : Usable g) (hg2 : Usable g2) (h : Inside lo hi g)
    (h2 : Inside lo hi g2) (l : List (Idx (n + 1))) (hl : s.domain.IterLoop s.domain.iterBegin l) :
    ∃ g', s.opAssignGrid op g2 l g = some g' ∧ g'.range = g.range ∧ Usable g' ∧
      (∀ p, InBox lo hi p → ∀ x y, g.get? p = some x → g2.get? p = some y → g'.get? p = some (op x y)) ∧
      ∀ p, InBox g.range.lo g.range.hi p → ¬ InBox lo hi p → g'.get? p = g.get? p := by
  obtain rfl := create_eq P Q lo hi g₀ s hs
  have hne : ∀ i, lo i ≤ hi i := fun i => (h i).2.1
  obtain ⟨l', e1, hu⟩ := C01_iterator_enumerates_range (⟨lo, hi⟩ : Range (n + 1)) hne
  rw [(hu l).mp hl]
  obtain ⟨g', i1, i2, i3, i4, i5⟩ := opGrid_spec op (⟨P, Q, true, ⟨lo, hi⟩, fun d => hi d - lo d + 1⟩ : SubGrid n) g2 hg2 rfl
    (fun p hp => inside_sub h2 p hp) l' g hg (fun p hp => inside_sub h p hp) (fun p hp => (e1.mem_iff p).mp hp) e1.nodup
  exact ⟨g', i1, i2, i3, fun p hp x y hx hy => i4 p ((e1.mem_iff p).mpr hp) x y hx hy,
    fun p hp hn => i5 p hp fun hc => hn ((e1.mem_iff p).mp hc)⟩

/-- **C49** The sub-grid `getGhostBoundary` returns for a grid of the size of the boundary object covers exactly the ghost cells of
that side. -/
theorem C49_ghost_boundary (B : Boundary (n + 1)) (P Q : Policy) (d : Fin (n + 1)) (b : Bound) (g : Grid T n) (hr : g.range = B.size)
    (hδ : 1 ≤ B.delta) (hin : ∀ i, B.size.lo i + B.delta ≤ B.size.hi i - B.delta) :
    ∃ s, SubGrid.ghostBoundary B P Q d b g = some s ∧ Inside s.domain.lo s.domain.hi g ∧
      ∀ p, InBox s.domain.lo s.domain.hi p ↔ InBox B.size.lo B.size.hi p ∧
        (match b with
          | .min => p d < B.size.lo d + B.delta
          | .max => B.size.hi d - B.delta < p d) := by
  have hI : Inside (B.ghostDomain d b).lo (B.ghostDomain d b).hi g := by
    intro i
    rw [hr]
    have := hin i
    cases b <;> simp only [Boundary.ghostDomain] <;> by_cases hi : i = d
    · subst hi; simp only [Function.update_self]; omega
    · simp only [Function.update_of_ne hi]; omega
    · subst hi; simp only [Function.update_self]; omega
    · simp only [Function.update_of_ne hi]; omega
  obtain ⟨s, h1, h2, h3, -⟩ := C49_create P Q _ _ g hI
  refine ⟨s, h1, by rw [h2, h3]; exact hI, fun p => ?_⟩
  rw [h2, h3]
  have hd := hin d
  cases b <;> simp only [Boundary.ghostDomain] <;> constructor
  · intro hp
    have hpd := hp d
    simp only [Function.update_self] at hpd
    refine ⟨fun i => ?_, by omega⟩
    by_cases hi : i = d
    · subst hi; omega
    · have := hp i; simp only [Function.update_of_ne hi] at this; exact this
  · rintro ⟨hp, hlt⟩ i
    have := hp i
    by_cases hi : i = d
    · subst hi; simp only [Function.update_self]; omega
    · simp only [Function.update_of_ne hi]; exact this
  · intro hp
    have hpd := hp d
    simp only [Function.update_self] at hpd
    refine ⟨fun i => ?_, by omega⟩
    by_cases hi : i = d
    · subst hi; omega
    · have := hp i; simp only [Function.update_of_ne hi] at this; exact this
  · rintro ⟨hp, hlt⟩ i
    have := hp i
    by_cases hi : i = d
    · subst hi; simp only [Function.update_self]; omega
    · simp only [Function.update_of_ne hi]; exact this

/-- **C74** If the sub-grid or its base grid has a checking policy that checks, then whatever index is used, no cell of the base
grid outside of the domain is read or changed. Missing: the default policies (below). -/
theorem C74_checked_partial (P Q : Policy) (hPQ : P ≠ .noArg ∨ Q ≠ .noArg) (lo hi : Idx (n + 1)) (g₀ g : Grid T n) (s : SubGrid n)
    (hs : SubGrid.create P Q lo hi g₀ = some s) (hg : Usable g) (h : Inside lo hi g) (p : Idx (n + 1)) :
    (∀ x, s.read g p = some x → ∃ q, InBox lo hi q ∧ g.get? q = some x) ∧
    ∀ v g', s.write g p v = some g' →
      ∀ q, InBox g.range.lo g.range.hi q → ¬ InBox lo hi q → g'.get? q = g.get? q := by
  obtain rfl := create_eq P Q lo hi g₀ s hs
  have hne : ∀ i, lo i ≤ hi i := fun i => (h i).2.1
  have key : ∀ q, (P.check p lo hi).bind (SubGrid.index ⟨P, Q, true, ⟨lo, hi⟩, fun d => hi d - lo d + 1⟩) = some q →
      InBox lo hi q := by
    intro q hq
    obtain ⟨q1, h1, h2⟩ := Option.bind_eq_some_iff.mp hq
    simp only [SubGrid.index, if_true] at h2
    by_cases hQ : Q = .noArg
    · subst hQ
      have hP : P ≠ .noArg := by simpa using hPQ
      exact check_mem _ q1 q lo hi hne (check_range P p q1 lo hi hne hP h1) h2
    · exact check_range Q q1 q lo hi hne hQ h2
  constructor
  · intro x hx
    simp only [SubGrid.read, Option.bind_eq_some_iff] at hx
    obtain ⟨q1, h1, q2, h2, h3⟩ := hx
    exact ⟨q2, key q2 (by rw [h1]; exact h2), h3⟩
  · intro v g' hw q hq hn
    simp only [SubGrid.write, Option.bind_eq_some_iff] at hw
    obtain ⟨q1, h1, q2, h2, h3⟩ := hw
    have hq2 := key q2 (by rw [h1]; exact h2)
    obtain ⟨g'', i1, -, -, -, i5⟩ := C07_write_read g hg q2 (inside_sub h q2 hq2) v
    rw [h3, Option.some.injEq] at i1
    subst i1
    exact i5 q hq fun hc => hn (hc ▸ hq2)

/-- **C74** An asserting sub-grid can only be created inside of its base grid. -/
theorem C74_domain_partial (Q : Policy) (lo hi : Idx (n + 1)) (g : Grid T n) (s : SubGrid n)
    (hs : SubGrid.create .asserting Q lo hi g = some s) (hne : ∀ i, lo i ≤ hi i) : Inside lo hi g := by
  simp only [SubGrid.create, Option.bind_eq_some_iff, Option.map_eq_some_iff] at hs
  obtain ⟨a, ha, b, hb, -⟩ := hs
  have hlo : InBox g.range.lo g.range.hi lo := by
    by_contra hc
    simp [Policy.check, (C08_assert _ _ _).2 hc] at ha
  have hhi : InBox g.range.lo g.range.hi hi := by
    by_contra hc
    simp [Policy.check, (C08_assert _ _ _).2 hc] at hb
  exact fun i => ⟨(hlo i).1, hne i, (hhi i).2⟩

/-- **C74 is false for the default policies**: writing to the sub-grid at an index outside of its domain changes a cell of the base
grid that is not in the domain. -/
theorem C74_violated_default (lo hi : Idx (n + 1)) (g₀ g : Grid T n) (s : SubGrid n)
    (hs : SubGrid.create .noArg .noArg lo hi g₀ = some s) (hg : Usable g) (p : Idx (n + 1)) (hp : InBox g.range.lo g.range.hi p)
    (v : T) : ∃ g', s.write g p v = some g' ∧ g'.get? p = some v := by
  obtain rfl := create_eq _ _ lo hi g₀ s hs
  obtain ⟨g', h1, -, -, h4, -⟩ := C07_write_read g hg p hp v
  exact ⟨g', by simp [SubGrid.write, SubGrid.index, Policy.check, Check.noArg, h1], h4⟩

/-- **C74 is false for the debug policy when the sub-grid is created**: the check of the corners has no effect on the domain, so
that a domain outside of the base grid is accepted, and then an access that passes all checks leaves the memory of the base grid. -/
theorem C74_violated_debug_create :
    let g : Grid ℤ 0 := Grid.create .c ⟨![0], ![3]⟩ (fun k => (k : ℤ))
    ∃ s, SubGrid.create .debug .debug ![2] ![6] g = some s ∧ s.domain.lo = ![2] ∧ s.domain.hi = ![6] ∧ s.read g ![5] = none := by
  intro g
  exact ⟨⟨.debug, .debug, true, ⟨![2], ![6]⟩, _⟩, rfl, rfl, rfl, by decide +kernel⟩

/-- **C75** After construction the dimensions reported are the extents of the domain. Missing: sub-grids that have been resized, for
which it is false (below). -/
theorem C75_dims_partial (P Q : Policy) (lo hi : Idx (n + 1)) (g : Grid T n) (s : SubGrid n)
    (hs : SubGrid.create P Q lo hi g = some s) (i : Fin (n + 1)) : s.dims i = extent s.domain.lo s.domain.hi i := by
  obtain rfl := create_eq P Q lo hi g s hs
  rfl

/-- **C75 is false after a resize**: the new limits are reported, but the dimensions are those from before. -/
theorem C75_violated_resize (s : SubGrid n) (low high : Idx (n + 1)) :
    (s.resize low high).domain = ⟨low, high⟩ ∧ (s.resize low high).dims = s.dims ∧
    (∀ i, s.dims i ≠ extent low high i → (s.resize low high).dims i ≠
      extent (s.resize low high).domain.lo (s.resize low high).domain.hi i) :=
  ⟨rfl, rfl, fun _ h => h⟩

/-- **C73** Reading a transformed grid at an index gives the transformed value of the base grid at the time of reading, for const
objects, and for others if the reference is read before the next access. Missing: references that are kept (below). -/
theorem C73_value_partial (f : T → T) (g : Grid T n) (hg : Usable g) (p : Idx (n + 1)) (hp : InBox g.range.lo g.range.hi p)
    (m : TransformMemory T) :
    ∃ x, g.get? p = some x ∧ GridTransform.readConst f g p = some (f x) ∧
      (GridTransform.get f g p m).map GridTransform.deref = some (f x) := by
  obtain ⟨x, hx⟩ := C07_read_defined g hg p hp
  exact ⟨x, hx, by simp [GridTransform.readConst, hx], by simp [GridTransform.get, GridTransform.deref, hx]⟩

/-- **C73 is false for two references**: if both elements are accessed before they are read, both read the value of the second. -/
theorem C73_violated_two (f : T → T) (g : Grid T n) (p q : Idx (n + 1)) (x y : T) (hx : g.get? p = some x) (hy : g.get? q = some y)
    (hxy : f x ≠ f y) (m : TransformMemory T) :
    GridTransform.readBoth f g p q m = some (f y, f y) ∧
    GridTransform.readBoth f g p q m ≠ (GridTransform.readConst f g p).bind fun a =>
      (GridTransform.readConst f g q).map fun b => (a, b) := by
  have h : GridTransform.readBoth f g p q m = some (f y, f y) := by
    simp [GridTransform.readBoth, GridTransform.get, GridTransform.deref, hx, hy]
  refine ⟨h, ?_⟩
  rw [h]
  simp [GridTransform.readConst, hx, hy, hxy.symm]

/-- **C73** A value written to an element of a transformed grid is lost: the next access gives the transformed value of the base
grid. -/
theorem C73_violated_write (f : T → T) (g : Grid T n) (p : Idx (n + 1)) (x v : T) (hx : g.get? p = some x) (hv : v ≠ f x)
    (m : TransformMemory T) :
    (((GridTransform.get f g p m).map fun m => GridTransform.assign m v).bind (GridTransform.get f g p)).map GridTransform.deref
      ≠ some v := by
  simp only [GridTransform.get, GridTransform.deref, hx, Option.map_some, Option.bind_some, ne_eq, Option.some.injEq]
  exact fun h => hv h.symm

/-! ## examples -/

/-- a sub-grid of a 4 x 4 grid -/
example :
    let g : Grid ℤ 1 := Grid.create .c ⟨![0, 0], ![3, 3]⟩ (fun k => (k : ℤ))
    Usable g ∧ Inside ![1, 1] ![2, 3] g ∧ (∃ s, SubGrid.create .noArg .noArg ![1, 1] ![2, 3] g = some s ∧ s.read g ![2, 3] = some 11) := by
  intro g
  refine ⟨C07_create _ _ _ (by decide) (by decide), by show ∀ i, _; decide, ⟨_, rfl, by decide +kernel⟩⟩

/-- two sub-grids of the same size at different places -/
example :
    let g : Grid ℤ 1 := Grid.create .c ⟨![0, 0], ![3, 3]⟩ (fun k => (k : ℤ))
    let g2 : Grid ℤ 1 := Grid.create .fortran ⟨![-5, 0], ![-2, 3]⟩ (fun k => (k : ℤ))
    ∃ s s2, SubGrid.create .noArg .noArg ![1, 1] ![2, 3] g = some s ∧ SubGrid.create .debug .noArg ![-5, 0] ![-4, 2] g2 = some s2 ∧
      Inside ![-5, 0] ![-4, 2] g2 ∧ ∀ i, s2.dims i = s.dims i := by
  intro g g2
  exact ⟨_, _, rfl, rfl, by show ∀ i, _; decide, by decide⟩

/-- an index outside of the window, inside of the base grid -/
example :
    let g : Grid ℤ 1 := Grid.create .c ⟨![0, 0], ![3, 3]⟩ (fun k => (k : ℤ))
    ∃ s, SubGrid.create .debug .noArg ![1, 1] ![2, 3] g = some s ∧ s.read g ![0, 0] = some 5 ∧ ¬ InBox (![1, 1] : Idx 2) ![2, 3] ![0, 0] ∧
      InBox g.range.lo g.range.hi ![0, 0] := by
  intro g
  refine ⟨_, rfl, by decide +kernel, ?_, ?_⟩
  · show ¬ ∀ i, _; decide
  · show ∀ i, _; decide

/-- a boundary of two cells -/
example : ∀ i : Fin 2, (![0, 0] : Idx 2) i + 2 ≤ (![5, 7] : Idx 2) i - 2 := by decide

end Schnek.Props
