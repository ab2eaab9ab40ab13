import Verif.Model.Check
import Verif.Model.Boundary

/-!
# Model of `schnek::SubGrid` and `schnek::GridTransform`

`src/grid/subgrid.hpp`, `src/grid/subgrid.t`, `src/grid/gridtransform.hpp`, `src/grid/gridtransform.t`

Both refer to a base grid by a pointer. The base grid is therefore an argument and a result of the functions. Both classes lack
the type `RangeType` that `GridBase` (grid.hpp 68) takes from its storage policy, and `GridTransform` declares its checking policy
with a parameter of type `int` (gridtransform.hpp 131) where the policies have one of type `size_t`; the model is about the code
with these declarations put right.
-/

namespace Schnek

/-- the checking policies, gridcheck.hpp 38-92 -/
inductive Policy
  /-- `GridNoArgCheck` -/
  | noArg
  /-- `GridAssertCheck` -/
  | asserting
  /-- `GridDebugCheck` -/
  | debug
deriving DecidableEq

/-- `check` of a policy: gridcheck.hpp 94-153; `none`: an assertion fails. The error flags of `GridDebugCheck` are left out. -/
def Policy.check {n : ℕ} (P : Policy) (pos low high : Idx n) : Option (Idx n) :=
  match P with
  | .noArg => some (Check.noArg pos low high)
  | .asserting => Check.assertCheck pos low high
  | .debug => some (Check.debugCheck pos low high ⟨false, 0, pos⟩).1

/-- `SubGrid`, `SubGridStorage`: subgrid.hpp 46-48, 147-159. `attached`: whether `baseGrid` has been set. -/
structure SubGrid (n : ℕ) where
  /-- the checking policy of the sub-grid -/
  policy : Policy
  /-- the checking policy of the base grid -/
  basePolicy : Policy
  /-- `baseGrid` is not `NULL` -/
  attached : Bool
  /-- `domain` -/
  domain : Range (n + 1)
  /-- `dims` -/
  dims : Idx (n + 1)

namespace SubGrid

variable {T T2 : Type} {n : ℕ}

/-- default constructor: subgrid.t 35-37, 65-67 -/
def empty (P Q : Policy) : SubGrid n := ⟨P, Q, false, ⟨fun _ => 0, fun _ => 0⟩, fun _ => 0⟩

/-- `SubGridStorage(low, high)`: subgrid.t 44-49, and the body of the constructors of `SubGrid`: subgrid.t 85-103. `none`: an
assertion fails. -/
def create (P Q : Policy) (low high : Idx (n + 1)) (g : Grid T n) : Option (SubGrid n) :=
  (P.check low g.range.lo g.range.hi).bind fun _ =>
    (P.check high g.range.lo g.range.hi).map fun _ =>
      ⟨P, Q, true, ⟨low, high⟩, fun d => high d - low d + 1⟩

/-- the constructor with a size: subgrid.t 73-79, grid.t 57-59 -/
def createSize (P Q : Policy) (size : Idx (n + 1)) (g : Grid T n) : Option (SubGrid n) :=
  create P Q (fun _ => 0) (fun d => size d - 1) g

/-- `Boundary::getGhostBoundary` for a grid: boundary.t 144-148 -/
def ghostBoundary (B : Boundary (n + 1)) (P Q : Policy) (dim : Fin (n + 1)) (b : Bound) (g : Grid T n) : Option (SubGrid n) :=
  create P Q (B.ghostDomain dim b).lo (B.ghostDomain dim b).hi g

/-- `Boundary::getGhostBoundary` for a field: boundary.t 159-164 -/
def fieldBoundary (B : Boundary (n + 1)) (P Q : Policy) (dim : Fin (n + 1)) (b : Bound) (stagger : Bool) (g : Grid T n) :
    Option (SubGrid n) :=
  create P Q (B.boundaryDomain dim b stagger).lo (B.boundaryDomain dim b stagger).hi g

/-- `resize(low, high)`: grid.t 546-549, subgrid.t 56-59 -/
def resize (s : SubGrid n) (low high : Idx (n + 1)) : SubGrid n := { s with domain := ⟨low, high⟩ }

/-- the index of the base grid that `get(index)` refers to: subgrid.hpp 107-117; `none`: null pointer or failed assertion -/
def index (s : SubGrid n) (p : Idx (n + 1)) : Option (Idx (n + 1)) :=
  if s.attached then s.basePolicy.check p s.domain.lo s.domain.hi else none

/-- reading `operator[]`, `operator()`: grid.t 96-113 and 120-382 -/
def read (s : SubGrid n) (g : Grid T n) (p : Idx (n + 1)) : Option T :=
  (s.policy.check p s.domain.lo s.domain.hi).bind fun q => (s.index q).bind g.get?

/-- writing to `operator[]`, `operator()` -/
def write (s : SubGrid n) (g : Grid T n) (p : Idx (n + 1)) (v : T) : Option (Grid T n) :=
  (s.policy.check p s.domain.lo s.domain.hi).bind fun q => (s.index q).bind fun q' => g.set? q' v

/-- `&baseGrid->get(*it)` of a storage iterator: subgrid.hpp 57-58, 64-69; `none`: outside of the base grid -/
def element (s : SubGrid n) (g : Grid T n) (p : Idx (n + 1)) : Option (Idx (n + 1)) :=
  if s.attached then (g.get? p).map fun _ => p else none

/-- the position of the next storage iterator when the positions `l` are still to come: after the last one the range iterator is at
the lower corner again, range.hpp 303-327 -/
def nextPos (s : SubGrid n) : List (Idx (n + 1)) → Idx (n + 1)
  | [] => s.domain.lo
  | q :: _ => q

/-- the loop of `operator=(val)`: grid.t 399-403, for the positions of the range iterator -/
def fillLoop (s : SubGrid n) (v : T) : List (Idx (n + 1)) → Grid T n → Option (Grid T n)
  | [], g => some g
  | p :: l, g => do
    let g' ← g.set? p v
    let _ ← s.element g' (s.nextPos l)
    s.fillLoop v l g'

/-- `operator=(val)`: grid.t 385-406; `l` are the positions of the range iterator of the domain -/
def fill (s : SubGrid n) (v : T) (l : List (Idx (n + 1))) (g : Grid T n) : Option (Grid T n) := do
  let _ ← s.element g s.domain.lo
  let _ ← s.element g s.domain.lo
  s.fillLoop v l g

/-- the loop of `operator+=` and `operator-=` for two sub-grids: grid.t 428-433, 487-492, for the positions of the two range
iterators. (An iterator that is past the end goes on from the start; that case is not modelled, `none`.) Simplification: the base
grids of the two are different grids. -/
def opLoop (op : T → T2 → T) (s : SubGrid n) (s2 : SubGrid n) (g2 : Grid T2 n) :
    List (Idx (n + 1)) → List (Idx (n + 1)) → Grid T n → Option (Grid T n)
  | _, [], g => some g
  | [], _ :: _, _ => none
  | p :: l, q :: l2, g => do
    let x ← g.get? p
    let y ← g2.get? q
    let g' ← g.set? p (op x y)
    let _ ← s.element g' (s.nextPos l)
    let _ ← s2.element g2 (s2.nextPos l2)
    s.opLoop op s2 g2 l l2 g'

/-- `operator+=` and `operator-=` for two sub-grids: grid.t 415-436, 474-495 -/
def opAssign (op : T → T2 → T) (s s2 : SubGrid n) (g2 : Grid T2 n) (l l2 : List (Idx (n + 1))) (g : Grid T n) :
    Option (Grid T n) := do
  let _ ← s.element g s.domain.lo
  let _ ← s2.element g2 s2.domain.lo
  let _ ← s2.element g2 s2.domain.lo
  s.opLoop op s2 g2 l l2 g

/-- `operator+=` and `operator-=` for a sub-grid and a grid: grid.t 444-465, 503-524: the same positions in both -/
def opAssignGrid (op : T → T2 → T) (s : SubGrid n) (g2 : Grid T2 n) : List (Idx (n + 1)) → Grid T n → Option (Grid T n)
  | [], g => some g
  | p :: l, g => do
    let q ← s.index p
    let x ← g.get? q
    let y ← g2.get? p
    let g' ← g.set? q (op x y)
    s.opAssignGrid op g2 l g'

end SubGrid

/-- The static variable `result` that all non-const objects of the same type share: gridtransform.hpp 83 -/
structure TransformMemory (T : Type) where
  /-- `result` -/
  result : T

namespace GridTransform

variable {T : Type} {n : ℕ}

/-- `get(index)` of a const object: gridtransform.hpp 88-91 -/
def readConst (f : T → T) (g : Grid T n) (p : Idx (n + 1)) : Option T := (g.get? p).map f

/-- `get(index)` of another object: gridtransform.hpp 81-86. The reference returned refers to `result`. -/
def get (f : T → T) (g : Grid T n) (p : Idx (n + 1)) (_m : TransformMemory T) : Option (TransformMemory T) :=
  (g.get? p).map fun x => ⟨f x⟩

/-- reading through the reference returned by `get` -/
def deref (m : TransformMemory T) : T := m.result

/-- writing through the reference returned by `get` -/
def assign (_m : TransformMemory T) (v : T) : TransformMemory T := ⟨v⟩

/-- reading the two references of two calls of `get`, both called first -/
def readBoth (f : T → T) (g : Grid T n) (p q : Idx (n + 1)) (m : TransformMemory T) : Option (T × T) := do
  let m1 ← get f g p m
  let m2 ← get f g q m1
  return (deref m2, deref m2)

end GridTransform

end Schnek
