import Verif.Model.Allocation
import Mathlib.Algebra.Order.Round
import Mathlib.Data.Nat.Sqrt
import Mathlib.Algebra.Order.Floor.Semiring
import Mathlib.Data.Rat.Floor

/-!
# Model of the running statistics of the lazy allocation policy

`SingleArrayLazyAllocation` (src/grid/gridstorage/single-array-allocation.hpp). Allocation.lean models what a resize does to the grids that
share data, with the two numbers a lazy resize takes from its statistics as inputs. Here are these two numbers, and what they make of the
size of the buffer.

Simplification: `double` is modelled with exact arithmetic, and `r` is exactly 1/20. `size_t` and `ptrdiff_t` are unbounded. One grid that
is resized again and again; the grids it shares data with are in Allocation.lean.
-/

namespace Schnek.LazyStats

/-- The members `bufSize`, `avgSize` and `avgVar` (single-array-allocation.hpp 219-226). -/
structure Stats where
  /-- `bufSize` -/
  bufSize : ℕ
  /-- `avgSize` -/
  avgSize : ℚ
  /-- `avgVar` -/
  avgVar : ℚ
deriving DecidableEq

/-- The default constructor (single-array-allocation.hpp 375-386). -/
def fresh : Stats := ⟨0, 0, 0⟩

/-- `r` (single-array-allocation.hpp 228-229, 382) -/
def r : ℚ := 1 / 20

/-- The conversion of a `double` to `ptrdiff_t`, which cuts off the fraction (single-array-allocation.hpp 457). -/
def trunc (x : ℚ) : ℤ := if 0 ≤ x then ⌊x⌋ else ⌈x⌉

/-- The new `avgSize` (single-array-allocation.hpp 456). -/
def nextAvg (s : Stats) (newSize : ℕ) : ℚ := r * newSize + (1 - r) * s.avgSize

/-- `diff` (single-array-allocation.hpp 457). `avgSize` is the new one. -/
def diff (s : Stats) (newSize : ℕ) : ℤ := trunc (newSize - nextAvg s newSize)

/-- The new `avgVar` (single-array-allocation.hpp 458). -/
def nextVar (s : Stats) (newSize : ℕ) : ℚ := r * diff s newSize * diff s newSize + (1 - r) * s.avgVar

/-- `((newSize + 32.0 * sqrt(avgVar)) < bufSize) && (bufSize > 100)` (single-array-allocation.hpp 460). The comparison is written without
the square root, see `C146_condition`. -/
def shrink (newSize bufSize : ℕ) (var : ℚ) : Bool :=
  decide (newSize < bufSize ∧ 1024 * var < ((bufSize : ℚ) - newSize) ^ 2 ∧ 100 < bufSize)

/-- `(size_t)(4 * sqrt(avgVar))` (single-array-allocation.hpp 486), see `C146_condition`. -/
def slack (var : ℚ) : ℕ := Nat.sqrt ⌊16 * var⌋₊

/-- Whether a resize frees the buffer and allocates another one (single-array-allocation.hpp 460-464). -/
def reallocates (s : Stats) (newSize : ℕ) : Bool :=
  Alloc.mustRealloc true newSize s.bufSize (shrink newSize s.bufSize (nextVar s newSize))

/-- `resizeImpl` (single-array-allocation.hpp 444-467). -/
def resize (s : Stats) (newSize : ℕ) : Stats where
  bufSize := if reallocates s newSize then Alloc.allocSize true newSize (slack (nextVar s newSize)) else s.bufSize
  avgSize := nextAvg s newSize
  avgVar := nextVar s newSize

/-- A new grid after resizes to these sizes, the first one first. -/
def run (sizes : List ℕ) : Stats := sizes.foldl resize fresh

end Schnek.LazyStats
