import Verif.Model.Range

/-!
# Model of `schnek::Boundary`

`src/grid/boundary.hpp`, `src/grid/boundary.t`.
-/

namespace Schnek

/-- `Boundary::bound` -/
inductive Bound
  | min
  | max
deriving DecidableEq

/-- `Boundary`: `size` and `delta`, boundary.t 33-50. -/
structure Boundary (n : ℕ) where
  /-- `size` -/
  size : Range n
  /-- `delta` -/
  delta : ℤ

namespace Boundary

variable {n : ℕ}

/-- `getGhostDomain(dim, b)`: boundary.t 57-73. -/
def ghostDomain (B : Boundary n) (dim : Fin n) : Bound → Range n
  | .min => ⟨B.size.lo, Function.update B.size.hi dim (B.size.lo dim + B.delta - 1)⟩
  | .max => ⟨Function.update B.size.lo dim (B.size.hi dim - B.delta + 1), B.size.hi⟩

/-- `getGhostSourceDomain(dim, b)`: boundary.t 80-98. The second assignment of each case uses the
already modified bound. -/
def ghostSourceDomain (B : Boundary n) (dim : Fin n) : Bound → Range n
  | .min =>
    let lo' := Function.update B.size.lo dim (B.size.lo dim + B.delta)
    ⟨lo', Function.update B.size.hi dim (lo' dim + B.delta - 1)⟩
  | .max =>
    let hi' := Function.update B.size.hi dim (B.size.hi dim - B.delta)
    ⟨Function.update B.size.lo dim (hi' dim - B.delta + 1), hi'⟩

/-- `getBoundaryDomain(dim, b, stagger)`: boundary.t 106-120. -/
def boundaryDomain (B : Boundary n) (dim : Fin n) (b : Bound) (stagger : Bool) : Range n :=
  match b with
  | .min => ⟨B.size.lo, Function.update B.size.hi dim
      (B.size.lo dim + B.delta - 1 - (if stagger then 1 else 0))⟩
  | .max => ⟨Function.update B.size.lo dim (B.size.hi dim - B.delta + 1), B.size.hi⟩

/-- `getInnerDomain()`: boundary.t 127-137. -/
def innerDomain (B : Boundary n) : Range n :=
  ⟨fun d => B.size.lo d + B.delta, fun d => B.size.hi d - B.delta⟩

end Boundary

end Schnek
