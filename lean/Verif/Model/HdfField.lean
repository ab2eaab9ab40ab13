import Verif.Model.Allocation
import Verif.Model.Hdf

/-!
# Grid diagnostics and the memory of the fields

`src/diagnostic/hdfdiagnostic.hpp`, `src/diagnostic/hdfdiagnostic.t`

An `HDFGridDiagnostic` or `HDFGridReader` copies the field of the program when it is initialised. Allocation.lean has the effect of copies on the
memory, Hdf.lean what is written to a file.
-/

namespace Schnek.HdfField

open Alloc Hdf

variable {T : Type} {n : ℕ}

/-- the grid objects, and the elements of all buffers; those of a new buffer are arbitrary, as are the ones of `mem` before it is allocated -/
structure World (T : Type) (n : ℕ) where
  heap : Heap n
  mem : ℕ → ℕ → T

/-- `x.get(p)`, as an element that is read: single-array-storage-base.hpp 336-355 -/
def World.get (o : Order) (W : World T n) (x : ℕ) (p : Idx (n + 1)) : Option T := (access o W.heap x p).map fun k => W.mem k.1 k.2

/-- what the program does with grids -/
inductive Action (T : Type) (n : ℕ)
  /-- construct, copy, assign, resize, destroy -/
  | grid (op : Op n)
  /-- `x.get(p) = v` -/
  | set (x : ℕ) (p : Idx (n + 1)) (v : T)

/-- one step of the program; `none`: undefined behaviour, or an object is used that does not exist -/
def World.act (o : Order) (lazy : Bool) (W : World T n) : Action T n → Option (World T n)
  | .grid op => match step o lazy W.heap op with
    | .ok h => some { W with heap := h }
    | .error _ => none
  | .set x p v => (access o W.heap x p).map fun k => { W with mem := Function.update W.mem k.1 (Function.update (W.mem k.1) k.2 v) }

/-- `getRawData()` with the range of the grid `x`: the elements that belong to the range, single-array-storage-base.hpp 65 -/
def World.grid (o : Order) (W : World T n) (x : ℕ) : Option (Grid T n) :=
  (W.heap.objs x).bind fun ob => (W.heap.recs ob.data).bind fun rec => rec.ptr.map fun b => ⟨o, ob.range, (List.range ob.size).map (W.mem b)⟩

/-- the members `field` (at address `copy`) and `container` (its grid at address `grid`): hdfdiagnostic.hpp 56-73, diagnostic.hpp 145 -/
structure Diag (n : ℕ) where
  copy : ℕ
  grid : ℕ
  globalMin : Idx (n + 1)
  globalMax : Idx (n + 1)
  localMin : Idx (n + 1)
  localMax : Idx (n + 1)

/-- the operations on grids in `init`: `data = *datap` in `retrieveData`, the argument of `CopyToContainer::copy` (at address `t`),
`container.grid = field`, the end of the argument: block.hpp 195, hdfdiagnostic.t 360-363, 371-373, 416, 433. `f` is the field of the program. -/
def initOps (f copy grid t : ℕ) : List (Op n) := [.assign copy f, .copy t copy, .assign grid t, .destroy t]

/-- `HDFGridDiagnostic::init` and `HDFGridReader::init`: hdfdiagnostic.t 408-420, 426-436, `CopyToContainer`: 360-376. `ghost` is the number of ghost cells
of a `Field`, and 0 for a `Grid`; `lo` and `hi` are what `getGlobalMin` and `getGlobalMax` return. -/
def World.init (o : Order) (lazy : Bool) (W : World T n) (f copy grid t : ℕ) (ghost : ℤ) (lo hi : Idx (n + 1)) : Option (World T n × Diag n) :=
  match run o lazy W.heap (initOps f copy grid t) with
  | .error _ => none
  | .ok h => (h.objs copy).map fun ob =>
      ({ W with heap := h }, ⟨copy, grid, lo, hi, fun i => ob.range.lo i + ghost, fun i => ob.range.hi i - ghost⟩)

/-- `container` when it is passed to `writeGrid` or `readGrid`: hdfdiagnostic.t 398, 453 -/
def Diag.container (o : Order) (W : World T n) (d : Diag n) : Option (Container T n) :=
  (W.grid o d.grid).map fun g => ⟨g, d.globalMin, d.globalMax, d.localMin, d.localMax⟩

/-- All processes write a dataset, in the order of the list, `HDFGridDiagnostic::write` with parallel HDF5: hdfdiagnostic.t 393-399; each has its own memory and
its own diagnostic. -/
def outputAll (o : Order) (fill : T) (ps : List (World T n × Diag n)) : Outcome (Dataset (n + 1) T) :=
  match ps.mapM fun p => p.2.container o p.1 with
  | some (c :: cs) => writeAll (create c fill) (c :: cs)
  | _ => .ub

/-- the elements of the grid `x` are overwritten -/
def World.store (W : World T n) (x : ℕ) (buf : List T) : World T n :=
  match (W.heap.objs x).bind fun ob => (W.heap.recs ob.data).bind Rec.ptr with
  | none => W
  | some b => { W with mem := Function.update W.mem b fun k => buf.getD k (W.mem b k) }

/-- `HDFGridReader::read` with parallel HDF5, on one process, for a file whose dataset `data` is `D`: hdfdiagnostic.t 449-454 -/
def Diag.read (o : Order) (W : World T n) (d : Diag n) (D : Dataset (n + 1) T) : Outcome (World T n) :=
  match d.container o W with
  | none => .ub
  | some c => match Hdf.read D c with
    | .fatal => .fatal
    | .failed => .failed
    | .ub => .ub
    | .ok c' => .ok (W.store d.grid c'.grid.buf)

end Schnek.HdfField
