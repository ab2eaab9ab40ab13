import Verif.Model.Storage
import Mathlib.Logic.Function.Basic

/-!
# Grids with Kokkos storage

Model of `src/grid/gridstorage/kokkos-storage.hpp`.

Objects live at client chosen addresses, `shared_ptr<UpdaterMapType>` is a number that identifies the
map, a `Kokkos::View` is a reference to a reference counted array of which only the extents matter here
(Kokkos itself is not modelled: a view is a handle, `createKokkosView` makes a new array, and an access
is defined exactly if every position is below the extent).
-/

namespace Schnek.Kokkos

open Schnek

/-- member variables of `KokkosGridStorage`, kokkos-storage.hpp 81-90 -/
structure Obj (n : ℕ) where
  /-- `range` -/
  range : Range n
  /-- `view`: handle of the array -/
  view : ℕ
  /-- `updaters`: handle of the map -/
  share : ℕ

/-- the state of all grids -/
structure Heap (n : ℕ) where
  /-- live grids -/
  objs : ℕ → Option (Obj n)
  /-- the keys (addresses) in every updater map -/
  keys : ℕ → List ℕ
  /-- the extents of every array -/
  extents : ℕ → Idx n
  /-- next map -/
  nextMap : ℕ
  /-- next array -/
  nextView : ℕ

/-- outcomes other than a new state -/
inductive Err
  /-- use of a dead grid, or construction at the address of a live one -/
  | invalid
  /-- the callback of a destroyed grid was called -/
  | deadCallback
deriving DecidableEq

/-- client operations -/
inductive Op (n : ℕ)
  /-- default constructor -/
  | constructDefault (a : ℕ)
  /-- `KokkosGridStorage(range)` -/
  | construct (a : ℕ) (r : Range n)
  /-- copy constructor -/
  | copy (a b : ℕ)
  /-- the implicit copy assignment operator -/
  | assign (a b : ℕ)
  /-- `a.resize(lo, hi)` -/
  | resize (a : ℕ) (r : Range n)
  /-- destructor -/
  | destroy (a : ℕ)

variable {n : ℕ}

/-- no grids -/
def Heap.empty : Heap n := ⟨fun _ => none, fun _ => [], fun _ _ => 0, 0, 0⟩

/-- `(*updaters)[this] = ...` -/
def addKey (l : List ℕ) (a : ℕ) : List ℕ := if a ∈ l then l else a :: l

/-- `updateSizeInfo` of the grid at `x`: kokkos-storage.hpp 210-216. -/
def callback (r : Range n) (h : Heap n) (x : ℕ) : Except Err (Heap n) :=
  match h.objs x with
  | none => .error .deadCallback
  | some ob => .ok { h with objs := Function.update h.objs x (some { ob with range := r }) }

/-- a new grid at the address `a` with the range `r`, a new view with the extents `e` and a new map -/
def create (h : Heap n) (a : ℕ) (r : Range n) (e : Idx n) : Except Err (Heap n) :=
  match h.objs a with
  | some _ => .error .invalid
  | none =>
    .ok ⟨Function.update h.objs a (some ⟨r, h.nextView, h.nextMap⟩),
      Function.update h.keys h.nextMap [a],
      Function.update h.extents h.nextView e, h.nextMap + 1, h.nextView + 1⟩

/-- one operation -/
def step (h : Heap n) : Op n → Except Err (Heap n)
  -- kokkos-storage.hpp 226-233; a view that is constructed without arguments has no elements
  | .constructDefault a => create h a ⟨fun _ => 0, fun _ => 0⟩ (fun _ => 0)
  -- kokkos-storage.hpp 244-262
  | .construct a r => create h a r (Storage.dims r)
  -- kokkos-storage.hpp 235-242
  | .copy a b =>
    match h.objs a, h.objs b with
    | none, some ob =>
      .ok { h with
        objs := Function.update h.objs a (some ob),
        keys := Function.update h.keys ob.share (addKey (h.keys ob.share) a) }
    | _, _ => .error .invalid
  -- no operator= is declared: the implicit one copies all members and registers nothing
  | .assign a b =>
    match h.objs a, h.objs b with
    | some _, some ob => .ok { h with objs := Function.update h.objs a (some ob) }
    | _, _ => .error .invalid
  -- kokkos-storage.hpp 292-298, `update`: 204-208
  | .resize a r =>
    match h.objs a with
    | none => .error .invalid
    | some oa =>
      (h.keys oa.share).foldlM (callback r)
        { h with
          objs := Function.update h.objs a (some { oa with view := h.nextView }),
          extents := Function.update h.extents h.nextView (Storage.dims r),
          nextView := h.nextView + 1 }
  -- kokkos-storage.hpp 264-268
  | .destroy a =>
    match h.objs a with
    | none => .error .invalid
    | some oa =>
      .ok { h with
        objs := Function.update h.objs a none,
        keys := Function.update h.keys oa.share ((h.keys oa.share).erase a) }

/-- `get(index)`: array and position in it; `none` if a position is outside of the view
(kokkos-storage.hpp 270-290). -/
def access (h : Heap n) (x : ℕ) (p : Idx n) : Option (ℕ × Idx n) :=
  match h.objs x with
  | none => none
  | some ob =>
    if ∀ i, 0 ≤ p i - ob.range.lo i ∧ p i - ob.range.lo i < h.extents ob.view i then
      some (ob.view, fun i => p i - ob.range.lo i)
    else none

end Schnek.Kokkos
