import Verif.Lemma.RangeOps
import Mathlib.Tactic.Linarith
import Mathlib.Algebra.Order.Group.Unbundled.Abs
import Mathlib.Algebra.Order.Group.Int

/-!
# Properties of the operations that change the limits of a range: C102, C103
-/

namespace Schnek.Props

open Schnek.Spec Schnek.Lemma.RangeOps

variable {n : ℕ}

/-! ## C102: growing -/

/-- **C102**, part: a range that is not empty, grown by different numbers of cells in the directions, consists of the cells that are
no farther away from a cell of the range. Not shown: arguments that refer to the limits of the range itself (`C102_violated_own_limit`). -/
theorem C102_grow_each_partial (r : Range n) (d : Fin n → ℤ) (hd : ∀ i, 0 ≤ d i) (hr : ∀ i, r.lo i ≤ r.hi i) (p : Fin n → ℤ) :
    let r' := r.growBy fun i => .value (d i)
    InBox r'.lo r'.hi p ↔ ∃ q, InBox r.lo r.hi q ∧ ∀ i, |p i - q i| ≤ d i := by
  intro r'
  have e : r' = ⟨fun i => r.lo i - d i, fun i => r.hi i + d i⟩ := growBy_value r d
  rw [e]
  constructor
  · intro h
    refine ⟨fun i => max (r.lo i) (min (p i) (r.hi i)), fun i => ?_, fun i => ?_⟩
    · have := hr i
      exact ⟨le_max_left _ _, max_le this (min_le_right _ _)⟩
    · have h1 := h i
      have h2 := hr i
      have h3 := hd i
      simp only at h1
      beta_reduce
      rw [abs_le]
      omega
  · rintro ⟨q, hq, h⟩ i
    have h1 := hq i
    have h2 := abs_le.mp (h i)
    simp only
    omega

/-- **C102**, part: the same for one number of cells in all directions -/
theorem C102_grow_partial (r : Range n) (s : ℤ) (hs : 0 ≤ s) (hr : ∀ i, r.lo i ≤ r.hi i) (p : Fin n → ℤ) :
    InBox (r.grow (.value s)).lo (r.grow (.value s)).hi p ↔ ∃ q, InBox r.lo r.hi q ∧ ∀ i, |p i - q i| ≤ s :=
  C102_grow_each_partial r (fun _ => s) (fun _ => hs) hr p

/-- **C102**, part: growing by a negative number leaves the cells all of whose neighbours, up to that distance, are in the range -/
theorem C102_shrink_partial (r : Range n) (s : ℤ) (hs : 0 ≤ s) (p : Fin n → ℤ) :
    InBox (r.grow (.value (-s))).lo (r.grow (.value (-s))).hi p ↔ ∀ q, (∀ i, |q i - p i| ≤ s) → InBox r.lo r.hi q := by
  rw [grow_value]
  constructor
  · intro h q hq i
    have h1 := h i
    have h2 := abs_le.mp (hq i)
    simp only at h1
    omega
  · intro h i
    have h1 := h (fun i => p i + s) (fun i => by rw [abs_le]; omega) i
    have h2 := h (fun i => p i - s) (fun i => by rw [abs_le]; omega) i
    simp only at h1 h2 ⊢
    omega

/-- **C102**, part: growing by a number and then by its negative changes nothing, also for empty ranges -/
theorem C102_back_partial (r : Range n) (s : ℤ) : (r.grow (.value s)).grow (.value (-s)) = r := by
  rw [grow_value, grow_value]
  cases r
  simp

/-- a ghost layer of two cells around a range of three times four cells -/
example : (⟨![1, 1], ![3, 4]⟩ : Range 2).grow (.value 2) = ⟨![-1, -1], ![5, 6]⟩ ∧
    (⟨![1, 1], ![3, 4]⟩ : Range 2).growBy (fun i => .value (![0, 3] i)) = ⟨![1, -2], ![3, 7]⟩ ∧
    ∀ i, (⟨![1, 1], ![3, 4]⟩ : Range 2).lo i ≤ (⟨![1, 1], ![3, 4]⟩ : Range 2).hi i := by decide +kernel

/-- **C102** fails: `r.grow(r.getHi(0))` does not grow by the value of the upper limit. The limit is changed while it is still used: the
second direction grows by twice as much as the first. `r.grow(r.getLo(0))` does not move the first upper limit at all. -/
theorem C102_violated_own_limit (r : Range 2) :
    r.grow (.hi 0) = ⟨![r.lo 0 - r.hi 0, r.lo 1 - 2 * r.hi 0], ![2 * r.hi 0, r.hi 1 + 2 * r.hi 0]⟩ ∧
    r.grow (.lo 0) = ⟨![0, r.lo 1], ![r.hi 0, r.hi 1]⟩ := by
  have hl : List.finRange 2 = [0, 1] := by decide
  refine ⟨?_, ?_⟩ <;>
  · unfold Range.grow
    rw [hl]
    simp only [List.foldl_cons, List.foldl_nil, Range.growDim, Range.Arg.read, Range.mk.injEq]
    constructor <;>
    · funext i
      match i with
      | 0 => simp [Function.update]; try omega
      | 1 => simp [Function.update]; try omega

/-! ## C103: projecting -/

/-- **C103**, part: the projection along a direction consists of the cells that come from a cell of the range when its coordinate in that
direction is left out, if the range is not empty in that direction. (`C103_violated_empty`: otherwise it is not.) -/
theorem C103_along_partial (r : Range (n + 1)) (dim : Fin (n + 1)) (hr : r.lo dim ≤ r.hi dim) (p : Fin n → ℤ) :
    InBox (r.projectDim dim).lo (r.projectDim dim).hi p ↔ ∃ q, InBox r.lo r.hi q ∧ ∀ j, p j = q (dim.succAbove j) := by
  have h0 : ∀ (a : Fin (n + 1) → ℤ) (j : Fin n), Range.projectDimArray a dim j = a (dim.succAbove j) := by
    intro a j
    unfold Range.projectDimArray
    split_ifs with h
    · rw [Fin.succAbove_of_castSucc_lt _ _ (by simpa [Fin.lt_def] using h)]
    · rw [Fin.succAbove_of_le_castSucc _ _ (by simpa [Fin.le_def] using h)]
  constructor
  · intro h
    refine ⟨dim.insertNth (r.lo dim) p, ?_, fun j => by simp⟩
    intro i
    rcases Fin.eq_self_or_eq_succAbove dim i with rfl | ⟨j, rfl⟩
    · simpa using hr
    · have := h j
      simp only [Range.projectDim, h0] at this
      simpa using this
  · rintro ⟨q, hq, h⟩ j
    simp only [Range.projectDim, h0, h j]
    exact hq _

/-- **C103**, part: the projection onto the first `k` directions consists of the first `k` coordinates of the cells of the range, if the
range is not empty in the other directions -/
theorem C103_first_partial (r : Range n) (k : ℕ) (hk : k ≤ n) (hr : ∀ i : Fin n, k ≤ i.1 → r.lo i ≤ r.hi i) (p : Fin k → ℤ) :
    InBox (r.project k hk).lo (r.project k hk).hi p ↔ ∃ q, InBox r.lo r.hi q ∧ ∀ j, p j = q (j.castLE hk) := by
  constructor
  · intro h
    refine ⟨fun i => if hi : i.1 < k then p ⟨i.1, hi⟩ else r.lo i, ?_, fun j => by simp⟩
    intro i
    beta_reduce
    split_ifs with hi
    · exact h ⟨i.1, hi⟩
    · exact ⟨le_rfl, hr i (by omega)⟩
  · rintro ⟨q, hq, h⟩ j
    rw [h j]
    exact hq _

example : (⟨![1, 2, 3], ![4, 5, 6]⟩ : Range 3).projectDim 1 = ⟨![1, 3], ![4, 6]⟩ ∧
    (⟨![1, 2, 3], ![4, 5, 6]⟩ : Range 3).project 2 (by decide) = ⟨![1, 2], ![4, 5]⟩ := by decide +kernel

/-- **C103** fails: a range that is empty in the direction that is left out has no cells, but its projection may have some -/
theorem C103_violated_empty : ∃ r : Range 2, (∀ q, ¬ InBox r.lo r.hi q) ∧ ∃ p, InBox (r.projectDim 1).lo (r.projectDim 1).hi p := by
  refine ⟨⟨![0, 5], ![9, 4]⟩, ?_, ![3], ?_⟩
  · intro q hq
    have := hq 1
    simp at this
    omega
  · intro i
    match i with
    | 0 => simp [Range.projectDim, Range.projectDimArray]

end Schnek.Props
