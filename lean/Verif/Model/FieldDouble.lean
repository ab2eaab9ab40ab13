import Verif.Model.Binary64
import Verif.Model.Field

/-!
# Conversions between positions and indices in `double`

`src/grid/field.t`. In `Model/Field.lean` these are formulas in an exact field; here each operation is rounded. The C++ expressions are
evaluated from left to right; `int` operands are converted to `double` without error, as they have less than 53 bits. The `int` arithmetic itself
(`hi-lo-2*ghostCells+1`, `index-lo`) does not overflow here; see C119 for that.
-/

namespace Schnek.Binary64

/-- `0.5*int(stagger[dim])` -/
def halfIf (stagger : Bool) : ℚ := if stagger then 1 / 2 else 0

/-- `xnorm`: field.t 154-158, 268-272. `lo`, `hi` are the limits of the grid in this dimension, `ghost` is `ghostCells`, `domLo`, `domHi` are the
limits of `domain`. -/
def xnorm (lo hi ghost : ℤ) (stagger : Bool) (domLo domHi pos : ℚ) : Option ℚ := do
  let a ← sub pos domLo
  let b ← mul a ((hi - lo - 2 * ghost + 1 : ℤ) : ℚ)
  let w ← sub domHi domLo
  let c ← div b w
  let d ← sub c (halfIf stagger)
  let e ← add d (ghost : ℚ)
  add e (lo : ℚ)

/-- `positionToIndex(dim, pos)`: field.t 266-273. `floor` is exact. -/
def positionToIndex (lo hi ghost : ℤ) (stagger : Bool) (domLo domHi pos : ℚ) : Option ℤ := do
  let x ← xnorm lo hi ghost stagger domLo domHi pos
  toInt ((⌊x⌋ : ℤ) : ℚ)

/-- `positionToIndex(dim, pos, index, offset)`: field.t 152-161. -/
def positionToIndexOffset (lo hi ghost : ℤ) (stagger : Bool) (domLo domHi pos : ℚ) : Option (ℤ × ℚ) := do
  let x ← xnorm lo hi ghost stagger domLo domHi pos
  let index ← toInt ((⌊x⌋ : ℤ) : ℚ)
  let offset ← sub x (index : ℚ)
  some (index, offset)

/-- `indexToPosition(dim, index)`: field.t 281-301. -/
def indexToPosition (lo hi ghost : ℤ) (stagger : Bool) (domLo domHi : ℚ) (index : ℤ) : Option ℚ := do
  let w ← sub domHi domLo
  let t₁ ← add ((index - lo : ℤ) : ℚ) (halfIf stagger)
  let t ← sub t₁ (ghost : ℚ)
  let m ← mul w t
  let q ← div m ((hi - lo - 2 * ghost + 1 : ℤ) : ℚ)
  add q domLo

variable {n : ℕ}

/-- `f.positionToIndex(d, pos)` of a field: field.t 266-273 -/
def indexAt (f : FieldShape ℚ n) (d : Fin n) (pos : ℚ) : Option ℤ :=
  positionToIndex (f.range.lo d) (f.range.hi d) f.ghost (f.stagger d) (f.domLo d) (f.domHi d) pos

/-- `f.positionToIndex(d, pos, index, offset)` of a field: field.t 152-161 -/
def indexOffsetAt (f : FieldShape ℚ n) (d : Fin n) (pos : ℚ) : Option (ℤ × ℚ) :=
  positionToIndexOffset (f.range.lo d) (f.range.hi d) f.ghost (f.stagger d) (f.domLo d) (f.domHi d) pos

/-- `f.indexToPosition(d, index)` of a field: field.t 281-301 -/
def positionAt (f : FieldShape ℚ n) (d : Fin n) (index : ℤ) : Option ℚ :=
  indexToPosition (f.range.lo d) (f.range.hi d) f.ghost (f.stagger d) (f.domLo d) (f.domHi d) index

end Schnek.Binary64
