import Verif.Model.Allocation
import Verif.Model.SubGrid

/-!
# Model of sub-grids and base grids with a history

`src/grid/subgrid.hpp`, `src/grid/subgrid.t`, on top of the heap of grid objects of Model/Allocation. Sub-grids are objects of their own.
They hold the address of the base grid, so that everything done to the base grid (resizing, assignment, destruction) is seen by
them.
-/

namespace Schnek.SubHist

open Schnek Schnek.Alloc

/-- A sub-grid object: `baseGrid` (`none` = NULL) and `domain`, subgrid.hpp 46-47. `dims` is left out (see C75). -/
structure Sub (n : ℕ) where
  /-- the address of the base grid -/
  base : Option ℕ
  /-- `domain.getLo()` -/
  lo : Idx (n + 1)
  /-- `domain.getHi()` -/
  hi : Idx (n + 1)

/-- all grids and all sub-grids of a program -/
structure World (n : ℕ) where
  /-- the grids -/
  grids : Heap n
  /-- the live sub-grids -/
  subs : ℕ → Option (Sub n)

/-- What a program does with grids and sub-grids. Addresses are chosen by the environment. -/
inductive Op (n : ℕ)
  /-- an operation on grids -/
  | grid (op : Alloc.Op n)
  /-- `SubGrid x;` -/
  | default (x : ℕ)
  /-- `SubGrid x(lo, hi, a);` for the grid `a` -/
  | create (x : ℕ) (lo hi : Idx (n + 1)) (a : ℕ)
  /-- `SubGrid x(y);` -/
  | copy (x y : ℕ)
  /-- `x = y` -/
  | assign (x y : ℕ)
  /-- `x.resize(lo, hi)` -/
  | resize (x : ℕ) (lo hi : Idx (n + 1))
  /-- destructor -/
  | destroy (x : ℕ)

/-- outcomes other than a new state -/
inductive Err
  /-- the operation on grids fails -/
  | grid (e : Alloc.Err)
  /-- use of an object that is not alive, or construction at the address of a live one -/
  | invalid
  /-- a failed assertion -/
  | assertion
deriving DecidableEq

variable {n : ℕ}

/-- at the start there are no objects -/
def World.empty : World n := ⟨Heap.empty, fun _ => none⟩

/-- overwrite the sub-grid at address `x` -/
def World.setSub (w : World n) (x : ℕ) (s : Option (Sub n)) : World n := { w with subs := Function.update w.subs x s }

/-- One operation. `P` is the checking policy of the sub-grids. -/
def step (o : Order) (lazy : Bool) (P : Policy) (w : World n) : Op n → Except Err (World n)
  | .grid op =>
    match Alloc.step o lazy w.grids op with
    | .error e => .error (.grid e)
    | .ok h => .ok { w with grids := h }
  -- subgrid.t 30-37, 61-67
  | .default x =>
    match w.subs x with
    | some _ => .error .invalid
    | none => .ok (w.setSub x (some ⟨none, fun _ => 0, fun _ => 0⟩))
  -- subgrid.t 39-49, 81-91; the range of the base grid is looked up at this moment
  | .create x lo hi a =>
    match w.subs x, w.grids.objs a with
    | none, some g =>
      match P.check lo g.range.lo g.range.hi, P.check hi g.range.lo g.range.hi with
      | some _, some _ => .ok (w.setSub x (some ⟨some a, lo, hi⟩))
      | _, _ => .error .assertion
    | _, _ => .error .invalid
  -- the copy constructor is defaulted: grid.hpp 80
  | .copy x y =>
    match w.subs x, w.subs y with
    | none, some s => .ok (w.setSub x (some s))
    | _, _ => .error .invalid
  -- so is the assignment: grid.hpp 157
  | .assign x y =>
    match w.subs x, w.subs y with
    | some _, some s => .ok (w.setSub x (some s))
    | _, _ => .error .invalid
  -- subgrid.t 51-59
  | .resize x lo hi =>
    match w.subs x with
    | some s => .ok (w.setSub x (some { s with lo := lo, hi := hi }))
    | none => .error .invalid
  | .destroy x =>
    match w.subs x with
    | some _ => .ok (w.setSub x none)
    | none => .error .invalid

/-- The element accessed by `x[p]`: buffer and element number. `none`: a failed assertion, the null pointer, a base grid that has been
destroyed, or an access outside of the buffer of the base grid. `P` and `Q` are the checking policies of sub-grids and grids:
grid.t 96-113, subgrid.hpp 107-117 (`check` of the base grid is called with the limits of the sub-grid, and `get` of the base grid
does not check). -/
def cell (o : Order) (P Q : Policy) (w : World n) (x : ℕ) (p : Idx (n + 1)) : Option (ℕ × ℕ) :=
  match w.subs x with
  | none => none
  | some s =>
    (P.check p s.lo s.hi).bind fun q =>
      s.base.bind fun a =>
        (Q.check q s.lo s.hi).bind fun q' => access o w.grids a q'

end Schnek.SubHist
