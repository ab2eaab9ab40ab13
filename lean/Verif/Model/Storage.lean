import Verif.Model.Range
import Mathlib.Data.ZMod.Basic

/-!
# Model of the single array storage policies and of `GridBase`
-/

namespace Schnek

/-- `size_t` / `ptrdiff_t` / pointer offsets in units of elements: arithmetic modulo 2^64.
Simplification: signed `ptrdiff_t` arithmetic (src/grid/gridstorage/single-array-storage-base.hpp
390) is modular too, i.e. its overflow is not treated as undefined. -/
abbrev Word := ZMod (2 ^ 64)

/-- storage order -/
inductive Order
  /-- `SingleArrayGridCOrderStorageBase` -/
  | c
  /-- `SingleArrayGridFortranOrderStorageBase` -/
  | fortran
deriving DecidableEq

namespace Storage

variable {n : ℕ}

/-- `dims[d] = hi[d]-lo[d]+1`: src/grid/gridstorage/single-array-allocation.hpp 326, 365. -/
def dims (r : Range n) : Idx n := fun d => r.hi d - r.lo d + 1

/-- `size = 1; for d: size *= dims[d]`:
src/grid/gridstorage/single-array-allocation.hpp 321-328, 359-367 (`size_t` arithmetic). -/
def size (r : Range n) : Word := (List.finRange n).foldl (fun s d => s * (dims r d : Word)) 1

/-- C order: the loop of `get` that computes the element offset `pos` relative to `data_fast`:
src/grid/gridstorage/single-array-storage-base.hpp 336-355 (`size_t pos = index[0]`, then
`pos = index[i] + dims[i]*pos`). The rank is `n+1`. -/
def posC (d index : Idx (n + 1)) : Word :=
  (List.finRange n).foldl
    (fun (pos : Word) i => (index i.succ : Word) + (d i.succ : Word) * pos) (index 0 : Word)

/-- C order: `updateDataFast`, the offset of `data_fast` relative to `data->ptr`:
src/grid/gridstorage/single-array-storage-base.hpp 388-397. -/
def fastC (d lo : Idx (n + 1)) : Word :=
  (List.finRange n).foldl
    (fun (p : Word) i => p * (d i.succ : Word) - (lo i.succ : Word)) (-(lo 0 : Word))

/-- Fortran order `get`: src/grid/gridstorage/single-array-storage-base.hpp 437-456, loop from
`rank-2` down to 0. -/
def posF (d index : Idx (n + 1)) : Word :=
  (List.finRange n).reverse.foldl
    (fun (pos : Word) i => (index i.castSucc : Word) + (d i.castSucc : Word) * pos)
    (index (Fin.last n) : Word)

/-- Fortran order `updateDataFast`: src/grid/gridstorage/single-array-storage-base.hpp 482-491. -/
def fastF (d lo : Idx (n + 1)) : Word :=
  (List.finRange n).reverse.foldl
    (fun (p : Word) i => p * (d i.castSucc : Word) - (lo i.castSucc : Word))
    (-(lo (Fin.last n) : Word))

/-- `&get(index) - data->ptr`, the number of the element accessed by `get`, after a resize to
range `r` (the update callback calls `updateDataFast`). An offset is a natural number
below 2^64; the access is inside the buffer iff it is below the number of allocated elements. -/
def slot (o : Order) (r : Range (n + 1)) (index : Idx (n + 1)) : ℕ :=
  match o with
  | .c => (fastC (dims r) r.lo + posC (dims r) index).val
  | .fortran => (fastF (dims r) r.lo + posF (dims r) index).val

/-- the loop `for (i = k-1; i > dim; --i) stride *= dims[i]`, with `k` started at the rank:
src/grid/gridstorage/single-array-storage-base.hpp 379-383. -/
def strideLoopC (d : Idx n) (dim : Fin n) : (k : ℕ) → k ≤ n → Word → Word
  | 0, _, s => s
  | k + 1, h, s =>
    if k > dim then strideLoopC d dim k (Nat.le_of_succ_le h) (s * (d ⟨k, h⟩ : Word)) else s

/-- C order `stride(dim)`: src/grid/gridstorage/single-array-storage-base.hpp 377-385. -/
def strideC (d : Idx n) (dim : Fin n) : Word := strideLoopC d dim n le_rfl 1

/-- the loop `for (i = 0; i < k; ++i) stride *= dims[i]`:
src/grid/gridstorage/single-array-storage-base.hpp 474-477. -/
def strideLoopF (d : Idx n) : (k : ℕ) → k ≤ n → Word
  | 0, _ => 1
  | k + 1, h => strideLoopF d k (Nat.le_of_succ_le h) * (d ⟨k, h⟩ : Word)

/-- Fortran order `stride(dim)`: src/grid/gridstorage/single-array-storage-base.hpp 471-479. -/
def strideF (d : Idx n) (dim : Fin n) : Word := strideLoopF d dim.1 dim.2.le

/-- `stride(dim)` of either storage order -/
def stride (o : Order) (r : Range n) (dim : Fin n) : Word :=
  match o with
  | .c => strideC (dims r) dim
  | .fortran => strideF (dims r) dim

end Storage

/-- A grid object with its own data: `GridBase` with a `SingleArrayGrid*OrderStorage`
(src/grid/grid.hpp 61ff). `buf` is the array `data->ptr[0..size)`. Sharing of `data` between
copies is modelled separately (Model/Allocation.lean). -/
structure Grid (T : Type) (n : ℕ) where
  /-- storage order (the storage policy template parameter) -/
  order : Order
  /-- `range` -/
  range : Range (n + 1)
  /-- the allocated elements -/
  buf : List T

namespace Grid

variable {T : Type} {n : ℕ}

/-- Constructor `Grid(range)` / `resize(range)`: `new T[size]`
(src/grid/gridstorage/single-array-allocation.hpp 355-369). The contents of the new elements are
arbitrary (`init`). -/
def create (o : Order) (r : Range (n + 1)) (init : ℕ → T) : Grid T n :=
  ⟨o, r, (List.range (Storage.size r).val).map init⟩

/-- The buffer of a grid has the size that belongs to its range. -/
def WF (g : Grid T n) : Prop := g.buf.length = (Storage.size g.range).val

/-- Reading `get(index)`; `none` is an access outside of the buffer (undefined behaviour):
src/grid/gridstorage/single-array-storage-base.hpp 336-355, 437-456. -/
def get? (g : Grid T n) (p : Idx (n + 1)) : Option T := g.buf[Storage.slot g.order g.range p]?

/-- Writing `get(index) = v`; `none` is an access outside of the buffer. -/
def set? (g : Grid T n) (p : Idx (n + 1)) (v : T) : Option (Grid T n) :=
  if Storage.slot g.order g.range p < g.buf.length then
    some { g with buf := g.buf.set (Storage.slot g.order g.range p) v }
  else none

/-- `operator=(const T &val)`: src/grid/grid.t 385-406, a loop over the raw storage from
`begin()` to `end()`. -/
def fill (g : Grid T n) (v : T) : Grid T n :=
  { g with buf := (List.range g.buf.length).foldl (fun b k => b.set k v) g.buf }

/-- `operator+=` / `operator-=` for a grid of the same storage policy: src/grid/grid.t 415-436,
474-495: a loop over the raw storage of both. `none` if the loop leaves the buffer of this grid. -/
def opAssignRaw {T2 : Type} (op : T → T2 → T) (g : Grid T n) (g2 : Grid T2 n) :
    Option (Grid T n) :=
  if g2.buf.length ≤ g.buf.length then
    some { g with buf := (List.zipWith op g.buf g2.buf) ++ g.buf.drop g2.buf.length }
  else none

/-- The loop body of `operator+=` / `operator-=` for different storage policies:
`this->get(*it) op= grid.get(*it)`, src/grid/grid.t 460, 519. -/
def opAssignAt {T2 : Type} (op : T → T2 → T) (g2 : Grid T2 n) (g : Grid T n) (p : Idx (n + 1)) :
    Option (Grid T n) := do
  let x ← g.get? p
  let y ← g2.get? p
  g.set? p (op x y)

/-- `operator+=` / `operator-=` for different storage policies: src/grid/grid.t 444-465, 503-524:
a loop over the positions `l` produced by the range iterator of this grid's range. -/
def opAssignLoop {T2 : Type} (op : T → T2 → T) (g2 : Grid T2 n) :
    Grid T n → List (Idx (n + 1)) → Option (Grid T n)
  | g, [] => some g
  | g, p :: l => do
    let g' ← opAssignAt op g2 g p
    opAssignLoop op g2 g' l

end Grid

end Schnek
