import Verif.Model.FieldDouble
import Verif.Model.Subdivision

/-!
# Physical extents of local domains in `double`

`src/grid/domainsubdivision.hpp`. In `Model/Subdivision.lean` the arithmetic is exact; here each operation is rounded. `int` operands are
converted to `double` without error; the `int` arithmetic itself does not overflow here.
-/

namespace Schnek.Subdivision

open Schnek.Binary64

variable {n : ℕ}

/-- one limit of the local extent: domainsubdivision.hpp 143-144, `lo + cell*dx`, where `cell` is `getInnerLo()[i]` or `getInnerHi()[i] + 1`
(line 145) and `cells` is the number of cells of the global domain -/
def extentLimit (cells : ℤ) (lo hi : ℚ) (cell : ℤ) : Option ℚ := do
  let w ← sub hi lo
  let dx ← div w (cells : ℚ)
  let m ← mul (cell : ℚ) dx
  add lo m

/-- `getInnerExtent(globalExtent)` for `double`: domainsubdivision.hpp 135-148, in one dimension -/
def innerExtentDouble (inner global : Range n) (extLo extHi : Fin n → ℚ) (i : Fin n) : Option (ℚ × ℚ) := do
  let l ← extentLimit (global.hi i - global.lo i + 1) (extLo i) (extHi i) (inner.lo i)
  let h ← extentLimit (global.hi i - global.lo i + 1) (extLo i) (extHi i) (inner.hi i + 1)
  some (l, h)

/-- `getInnerExtent(globalExtent)` in all dimensions: domainsubdivision.hpp 135-148; the result is the lower and the upper corner -/
def InnerExtentDouble (inner global : Range n) (extLo extHi : Fin n → ℚ) (E : (Fin n → ℚ) × (Fin n → ℚ)) : Prop :=
  ∀ i, innerExtentDouble inner global extLo extHi i = some (E.1 i, E.2 i)

end Schnek.Subdivision
