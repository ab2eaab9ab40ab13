import Verif.Model.Field
import Verif.Spec.Range
import Mathlib.Tactic.FieldSimp
import Mathlib.Tactic.Ring
import Mathlib.Tactic.Linarith
import Mathlib.Tactic.LinearCombination
import Mathlib.Data.Rat.Floor

/-!
# C13, C14, C55: shape and coordinates of fields
-/

namespace Schnek.Props

open Schnek Schnek.Spec

variable {K : Type} {n : ℕ}

/-- `full` is the box `lo .. hi` with `g` more cells on every side. -/
def Surrounded (full : Range n) (lo hi : Idx n) (g : ℤ) : Prop :=
  ∀ i, full.lo i = lo i - g ∧ full.hi i = hi i + g

/-- What the user asked for: a field with inner cells `lo .. hi`, ghost width `g` and the given physical domain and
stagger. -/
structure IsRequested (f : FieldShape K n) (lo hi : Idx n) (domLo domHi : Fin n → K) (stagger : Fin n → Bool)
    (g : ℤ) : Prop where
  inner_range : f.innerRange = ⟨lo, hi⟩
  inner_lo : f.innerLo = lo
  inner_hi : f.innerHi = hi
  full : Surrounded f.range lo hi g
  dom : f.domLo = domLo ∧ f.domHi = domHi ∧ f.stagger = stagger

private theorem req (lo hi : Idx n) (domLo domHi : Fin n → K) (st : Fin n → Bool) (g : ℤ) (r : Range n)
    (h1 : ∀ i, r.lo i = lo i - g) (h2 : ∀ i, r.hi i = hi i + g) :
    IsRequested (⟨r, domLo, domHi, st, g⟩ : FieldShape K n) lo hi domLo domHi st g := by
  refine ⟨?_, ?_, ?_, fun i => ⟨h1 i, h2 i⟩, rfl, rfl, rfl⟩
  · simp only [FieldShape.innerRange, Range.mk.injEq]
    exact ⟨funext fun i => by rw [h1]; omega, funext fun i => by rw [h2]; omega⟩
  · funext i; simp only [FieldShape.innerLo]; rw [h1]; omega
  · funext i; simp only [FieldShape.innerHi]; rw [h2]; omega

/-- **C13** constructors -/
theorem C13_constructors (size lo hi : Idx n) (r : Range n) (domLo domHi : Fin n → K) (st : Fin n → Bool)
    (g : ℤ) :
    IsRequested (FieldShape.ofSize size domLo domHi st g) (fun _ => 0) (fun i => size i - 1) domLo domHi st g ∧
    IsRequested (FieldShape.ofLimits lo hi domLo domHi st g) lo hi domLo domHi st g ∧
    IsRequested (FieldShape.ofRange r domLo domHi st g) r.lo r.hi domLo domHi st g :=
  ⟨req _ _ _ _ _ _ _ (fun _ => rfl) (fun i => by simp only; omega),
   req _ _ _ _ _ _ _ (fun _ => rfl) (fun _ => rfl), req _ _ _ _ _ _ _ (fun _ => rfl) (fun _ => rfl)⟩

/-- **C13** resizes: whatever the field was before -/
theorem C13_resizes (f : FieldShape K n) (size lo hi : Idx n) (r : Range n) (domLo domHi : Fin n → K)
    (st : Fin n → Bool) (g : ℤ) :
    IsRequested (f.resizeSize size domLo domHi st g) (fun _ => 0) (fun i => size i - 1) domLo domHi st g ∧
    IsRequested (f.resizeLimits lo hi domLo domHi st g) lo hi domLo domHi st g ∧
    IsRequested (f.resizeRange r domLo domHi st g) r.lo r.hi domLo domHi st g :=
  ⟨req _ _ _ _ _ _ _ (fun _ => rfl) (fun i => by simp only; omega),
   req _ _ _ _ _ _ _ (fun _ => rfl) (fun _ => rfl), req _ _ _ _ _ _ _ (fun _ => rfl) (fun _ => rfl)⟩

/-- an instance: 10×5 cells with 2 ghost cells -/
example : (FieldShape.ofSize (K := ℚ) ![10, 5] ![0, 0] ![1, 1] ![false, true] 2).range = ⟨![-2, -2], ![11, 6]⟩ ∧
    (FieldShape.ofSize (K := ℚ) ![10, 5] ![0, 0] ![1, 1] ![false, true] 2).innerRange = ⟨![0, 0], ![9, 4]⟩ := by
  decide

section coordinates

variable [Field K] [LinearOrder K] [IsStrictOrderedRing K] [FloorRing K]

/-- number of inner cells in dimension `d` -/
def cells (f : FieldShape K n) (d : Fin n) : ℤ := f.innerHi d - f.innerLo d + 1

/-- cell width -/
def dx (f : FieldShape K n) (d : Fin n) : K := (f.domHi d - f.domLo d) / cells f d

/-- Where grid point `i` is: the first inner point at the lower end of the domain, half a cell further if the field
is staggered, and neighbouring points one cell width apart. -/
def pointAt (f : FieldShape K n) (d : Fin n) (i : ℤ) : K :=
  f.domLo d + ((i - f.innerLo d : ℤ) + if f.stagger d then 1 / 2 else 0) * dx f d

omit [IsStrictOrderedRing K] in
private theorem i2p (f : FieldShape K n) (d : Fin n) (i : ℤ) (hN : cells f d ≠ 0) :
    f.indexToPosition d i = pointAt f d i := by
  have hN' : (cells f d : K) ≠ 0 := by exact_mod_cast hN
  have hc : ((f.range.hi d - f.range.lo d - 2 * f.ghost + 1 : ℤ) : K) = (cells f d : K) := by
    congr 1
    simp only [cells, FieldShape.innerHi, FieldShape.innerLo]; ring
  simp only [FieldShape.indexToPosition, pointAt, dx, hc]
  simp only [FieldShape.innerLo, FieldShape.stag]
  cases f.stagger d <;> · field_simp; push_cast; ring_nf; try simp

omit [IsStrictOrderedRing K] in
private theorem xnorm_eq (f : FieldShape K n) (d : Fin n) (pos : K) (hN : cells f d ≠ 0)
    (hd : f.domHi d ≠ f.domLo d) :
    (pos - f.domLo d) * ((f.range.hi d - f.range.lo d - 2 * f.ghost + 1 : ℤ) : K) / (f.domHi d - f.domLo d)
      - (1 / 2) * (FieldShape.stag (f.stagger d) : K) + (f.ghost : K) + (f.range.lo d : K)
    = (pos - pointAt f d 0) / dx f d := by
  have hN' : (cells f d : K) ≠ 0 := by exact_mod_cast hN
  have hd' : f.domHi d - f.domLo d ≠ 0 := sub_ne_zero.mpr hd
  have hc : ((f.range.hi d - f.range.lo d - 2 * f.ghost + 1 : ℤ) : K) = (cells f d : K) := by
    congr 1
    simp only [cells, FieldShape.innerHi, FieldShape.innerLo]; ring
  rw [hc]
  simp only [pointAt, dx, FieldShape.innerLo, FieldShape.stag]
  cases f.stagger d <;> · field_simp; push_cast; ring_nf; try simp

omit [LinearOrder K] [IsStrictOrderedRing K] [FloorRing K] in
private theorem pointAt_lin (f : FieldShape K n) (d : Fin n) (i : ℤ) :
    pointAt f d i = pointAt f d 0 + i * dx f d := by
  simp only [pointAt]; push_cast; ring

omit [FloorRing K] in
private theorem dx_ne (f : FieldShape K n) (d : Fin n) (hN : cells f d ≠ 0)
    (hd : f.domHi d ≠ f.domLo d) : dx f d ≠ 0 := by
  have hN' : (cells f d : K) ≠ 0 := by exact_mod_cast hN
  exact div_ne_zero (sub_ne_zero.mpr hd) hN'

/-- **C14** `indexToPosition` is the position of the grid point; on an unstaggered field the faces of the inner cells
at both ends lie on the domain boundaries. -/
theorem C14_indexToPosition (f : FieldShape K n) (d : Fin n) (i : ℤ) (hN : 1 ≤ cells f d) :
    f.indexToPosition d i = pointAt f d i ∧
    (f.stagger d = false → f.indexToPosition d (f.innerLo d) = f.domLo d ∧
      f.indexToPosition d (f.innerHi d + 1) = f.domHi d) ∧
    (f.stagger d = true → f.indexToPosition d (f.innerLo d) = f.domLo d + dx f d / 2 ∧
      f.indexToPosition d (f.innerHi d) = f.domHi d - dx f d / 2) := by
  have hN0 : cells f d ≠ 0 := by omega
  have hN' : (cells f d : K) ≠ 0 := by exact_mod_cast hN0
  have hc : (f.innerHi d : K) = cells f d + f.innerLo d - 1 := by
    simp only [cells]; push_cast; ring
  refine ⟨i2p f d i hN0, fun hs => ?_, fun hs => ?_⟩
  · rw [i2p f d _ hN0, i2p f d _ hN0]
    simp only [pointAt, hs, dx]
    constructor
    · simp
    · push_cast; rw [hc]; field_simp; simp; ring
  · rw [i2p f d _ hN0, i2p f d _ hN0]
    simp only [pointAt, hs, dx]
    constructor
    · simp; ring
    · push_cast; rw [hc]; simp; field_simp; ring

/-- **C14** `positionToIndex` inverts `indexToPosition`. -/
theorem C14_position_of_index (f : FieldShape K n) (d : Fin n) (i : ℤ) (hN : 1 ≤ cells f d)
    (hd : f.domHi d ≠ f.domLo d) :
    f.positionToIndex d (f.indexToPosition d i) = (i, 0) ∧
    f.positionToIndexOnly d (f.indexToPosition d i) = i := by
  have hN0 : cells f d ≠ 0 := by omega
  have key : (f.indexToPosition d i - f.domLo d) * ((f.range.hi d - f.range.lo d - 2 * f.ghost + 1 : ℤ) : K)
      / (f.domHi d - f.domLo d) - (1 / 2) * (FieldShape.stag (f.stagger d) : K) + (f.ghost : K) + (f.range.lo d : K)
      = (i : K) := by
    rw [xnorm_eq f d _ hN0 hd, i2p f d i hN0, pointAt_lin]
    have := dx_ne f d hN0 hd
    field_simp; ring
  simp only [FieldShape.positionToIndex, FieldShape.positionToIndexOnly, key, Int.floor_intCast, sub_self, and_self]

/-- **C14** every position is `indexToPosition(index) + offset * dx` with `0 ≤ offset < 1` for the results of
`positionToIndex`, and for no other index and offset. -/
theorem C14_index_of_position (f : FieldShape K n) (d : Fin n) (pos : K) (hN : 1 ≤ cells f d)
    (hd : f.domHi d ≠ f.domLo d) (i : ℤ) (t : K) :
    (f.positionToIndex d pos = (i, t) ↔ pos = pointAt f d i + t * dx f d ∧ 0 ≤ t ∧ t < 1) ∧
    f.positionToIndexOnly d pos = (f.positionToIndex d pos).1 := by
  have hN0 : cells f d ≠ 0 := by omega
  have hx := dx_ne f d hN0 hd
  refine ⟨?_, rfl⟩
  simp only [FieldShape.positionToIndex]
  rw [xnorm_eq f d pos hN0 hd, pointAt_lin f d i]
  set y := (pos - pointAt f d 0) / dx f d with hy
  have hpos : pos = pointAt f d 0 + y * dx f d := by rw [hy]; field_simp; ring
  constructor
  · intro h
    have h1 : ⌊y⌋ = i := congrArg Prod.fst h
    have h2 : y - (⌊y⌋ : K) = t := congrArg Prod.snd h
    rw [h1] at h2
    have h3 := Int.floor_le y
    have h4 := Int.lt_floor_add_one y
    rw [h1] at h3 h4
    refine ⟨?_, by linarith, by linarith⟩
    rw [hpos, ← h2]; ring
  · rintro ⟨h1, h2, h3⟩
    have hyt : y = i + t := by
      have : y * dx f d = (i + t) * dx f d := by
        have := hpos.symm.trans h1
        linear_combination this
      exact mul_right_cancel₀ hx this
    have hfl : ⌊y⌋ = i := by
      rw [Int.floor_eq_iff]
      constructor <;> rw [hyt] <;> linarith
    rw [hfl, hyt]
    simp

/-- non-vacuity: a staggered field with 10 inner cells, 2 ghost cells over [-1, 4]; position 1.6 -/
example : let f := FieldShape.ofLimits (K := ℚ) ![5] ![14] ![-1] ![4] ![true] 2
    1 ≤ cells f 0 ∧ f.domHi 0 ≠ f.domLo 0 ∧ f.indexToPosition 0 9 = 5 / 4 ∧
    f.positionToIndex 0 (8 / 5) = (9, 7 / 10) := by
  refine ⟨by decide, by decide, ?_, ?_⟩
  · simp [FieldShape.indexToPosition, FieldShape.ofLimits, FieldShape.stag]; norm_num
  · have := (C14_index_of_position (FieldShape.ofLimits (K := ℚ) ![5] ![14] ![-1] ![4] ![true] 2) 0 (8 / 5) (by decide)
      (by decide) 9 (7 / 10)).1
    rw [this]
    simp [pointAt, dx, cells, FieldShape.ofLimits, FieldShape.innerLo, FieldShape.innerHi]; norm_num

end coordinates

/-- **C55** FINDING: Fields that are copies of each other share their data and, through the callbacks, their range, but
not the number of ghost cells. After one of them is resized to inner range `r` with `g'` ghost cells the
other one has inner range `r` if and only if it had `g'` ghost cells before. -/
theorem C55_violated_copy_inner_range (f : FieldShape K (n + 1)) (r : Range (n + 1)) (domLo domHi : Fin (n + 1) → K)
    (st : Fin (n + 1) → Bool) (g' : ℤ) :
    ((f.resizedByCopy (f.resizeRange r domLo domHi st g').range).innerRange = r ↔ g' = f.ghost) ∧
    ∃ (f0 : FieldShape ℤ 1) (r0 : Range 1),
      (f0.resizedByCopy (f0.resizeRange r0 (fun _ => 0) (fun _ => 1) (fun _ => false) 2).range).innerRange ≠ r0 := by
  constructor
  · simp only [FieldShape.resizedByCopy, FieldShape.innerRange, FieldShape.resizeRange]
    constructor
    · intro h
      have := congrFun (congrArg Range.lo h) 0
      simp only at this
      omega
    · rintro rfl
      cases r
      simp
  · refine ⟨FieldShape.ofSize (fun _ => 10) (fun _ => 0) (fun _ => 1) (fun _ => false) 1, ⟨![0], ![9]⟩, by decide⟩

end Schnek.Props
