import Verif.Model.Range
import Mathlib.Algebra.Order.Floor.Defs
import Mathlib.Algebra.Order.Floor.Ring
import Mathlib.Algebra.Order.Field.Basic

/-!
# Model of `schnek::Field`

`src/grid/field.hpp`, `src/grid/field.t`. The cell contents are those of the base class `Grid` (see
`Model/Storage.lean`); here we model the shape. `double` is an ordered field with a floor function
(exact arithmetic: rounding is not modelled).
-/

namespace Schnek

/-- Member variables of `Field` (field.hpp 53-55) and the range of the base class. -/
structure FieldShape (K : Type) (n : ℕ) where
  /-- range of the `Grid` base class -/
  range : Range n
  /-- `domain.getLo()` -/
  domLo : Fin n → K
  /-- `domain.getHi()` -/
  domHi : Fin n → K
  /-- `stagger` -/
  stagger : Fin n → Bool
  /-- `ghostCells` -/
  ghost : ℤ

namespace FieldShape

variable {K : Type} {n : ℕ}

/-- `Field(size, domain, stagger, ghostCells)`: field.t 49-67. -/
def ofSize (size : Idx n) (domLo domHi : Fin n → K) (stagger : Fin n → Bool) (g : ℤ) : FieldShape K n :=
  ⟨⟨fun _ => 0 - g, fun i => size i + (g - 1)⟩, domLo, domHi, stagger, g⟩

/-- `Field(low, high, domain, stagger, ghostCells)`: field.t 79-99. -/
def ofLimits (low high : Idx n) (domLo domHi : Fin n → K) (stagger : Fin n → Bool) (g : ℤ) : FieldShape K n :=
  ⟨⟨fun i => low i - g, fun i => high i + g⟩, domLo, domHi, stagger, g⟩

/-- `Field(range, domain, stagger, ghostCells)`: field.t 111-130. -/
def ofRange (r : Range n) (domLo domHi : Fin n → K) (stagger : Fin n → Bool) (g : ℤ) : FieldShape K n :=
  ⟨⟨fun i => r.lo i - g, fun i => r.hi i + g⟩, domLo, domHi, stagger, g⟩

/-- `resize(size, domain, stagger, ghostCells)`: field.t 174-193. -/
def resizeSize (_f : FieldShape K n) (size : Idx n) (domLo domHi : Fin n → K) (stagger : Fin n → Bool) (g : ℤ) :
    FieldShape K n :=
  ⟨⟨fun _ => 0 - g, fun i => size i + (g - 1)⟩, domLo, domHi, stagger, g⟩

/-- `resize(low, high, domain, stagger, ghostCells)`: field.t 206-226. -/
def resizeLimits (_f : FieldShape K n) (low high : Idx n) (domLo domHi : Fin n → K) (stagger : Fin n → Bool) (g : ℤ) :
    FieldShape K n :=
  ⟨⟨fun i => low i - g, fun i => high i + g⟩, domLo, domHi, stagger, g⟩

/-- `resize(range, domain, stagger, ghostCells)`: field.t 239-257. -/
def resizeRange (_f : FieldShape K n) (r : Range n) (domLo domHi : Fin n → K) (stagger : Fin n → Bool) (g : ℤ) :
    FieldShape K n :=
  ⟨⟨fun i => r.lo i - g, fun i => r.hi i + g⟩, domLo, domHi, stagger, g⟩

/-- What happens to a copy `f` of a field when another copy is resized so that the shared data gets the
range `r`: only the members of the storage are updated by the callback
(single-array-allocation.hpp 320-333; `C09_resize`), the members of `Field` are not shared. -/
def resizedByCopy (f : FieldShape K n) (r : Range n) : FieldShape K n := { f with range := r }

/-- `getInnerLo`: field.hpp 101. -/
def innerLo (f : FieldShape K n) : Idx n := fun i => f.range.lo i + f.ghost

/-- `getInnerHi`: field.hpp 104. -/
def innerHi (f : FieldShape K n) : Idx n := fun i => f.range.hi i - f.ghost

/-- `getInnerRange`: field.hpp 107. -/
def innerRange (f : FieldShape K n) : Range n :=
  ⟨fun i => f.range.lo i + f.ghost, fun i => f.range.hi i - f.ghost⟩

/-- `int(stagger[dim])` -/
def stag (b : Bool) : ℤ := if b then 1 else 0

variable [Field K] [LinearOrder K] [IsStrictOrderedRing K] [FloorRing K]

/-- `positionToIndex(dim, pos, index, offset)`: field.t 152-161. -/
def positionToIndex (f : FieldShape K n) (d : Fin n) (pos : K) : ℤ × K :=
  let lo := f.range.lo d
  let hi := f.range.hi d
  let xnorm := (pos - f.domLo d) * ((hi - lo - 2 * f.ghost + 1 : ℤ) : K) / (f.domHi d - f.domLo d)
    - (1 / 2) * (stag (f.stagger d) : K) + (f.ghost : K) + (lo : K)
  let index := ⌊xnorm⌋
  (index, xnorm - index)

/-- `positionToIndex(dim, pos)`: field.t 266-273. -/
def positionToIndexOnly (f : FieldShape K n) (d : Fin n) (pos : K) : ℤ :=
  let lo := f.range.lo d
  let hi := f.range.hi d
  ⌊(pos - f.domLo d) * ((hi - lo - 2 * f.ghost + 1 : ℤ) : K) / (f.domHi d - f.domLo d)
    - (1 / 2) * (stag (f.stagger d) : K) + (f.ghost : K) + (lo : K)⌋

/-- `indexToPosition(dim, index)`: field.t 281-301. -/
def indexToPosition (f : FieldShape K n) (d : Fin n) (index : ℤ) : K :=
  let lo := f.range.lo d
  let hi := f.range.hi d
  (f.domHi d - f.domLo d) * (((index - lo : ℤ) : K) + (1 / 2) * (stag (f.stagger d) : K) - (f.ghost : K))
    / ((hi - lo - 2 * f.ghost + 1 : ℤ) : K) + f.domLo d

end FieldShape

end Schnek
