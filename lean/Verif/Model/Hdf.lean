import Verif.Model.Storage
import Verif.Model.Diagnostic

/-!
# Model of the HDF5 streams

`src/diagnostic/hdfdiagnostic.hpp`, `src/diagnostic/hdfdiagnostic.cpp`, `src/diagnostic/hdfdiagnostic.t`

The HDF5 library is represented by the documented effect of the calls: datasets are arrays, a hyperslab selection with a start and a
count is a box, and the k-th selected element of the memory is transferred to or from the k-th selected element of the file, in row-major
order. Data types and their conversion, attributes and property lists are not modelled.
-/

namespace Schnek.Hdf

/-! ## datasets -/

variable {n : ℕ} {T : Type}

/-- `hsize_t`, an unsigned 64 bit number: the value of an `int` expression that is assigned to it -/
def hsize (x : ℤ) : ℤ := ((x : Word).val : ℤ)

/-- number of the element at position `p` of an array with extents `dims`, in row-major order (HDF5 library) -/
def rowMajor (dims p : Idx n) : ℤ := (List.finRange n).foldl (fun a i => a * dims i + p i) 0

/-- a dataset in a file -/
structure Dataset (n : ℕ) (T : Type) where
  /-- extents -/
  dims : Idx n
  /-- the element at each position -/
  cells : Idx n → T

/-- `GridContainer`: hdfdiagnostic.hpp 56-73 -/
structure Container (T : Type) (n : ℕ) where
  grid : Grid T n
  globalMin : Idx (n + 1)
  globalMax : Idx (n + 1)
  localMin : Idx (n + 1)
  localMax : Idx (n + 1)

/-- how a call ends -/
inductive Outcome (α : Type)
  /-- `exit(-1)` after an error message -/
  | fatal
  /-- an HDF5 call fails, `assert` -/
  | failed
  /-- access to memory outside of the grid -/
  | ub
  | ok (a : α)

/-- the local variables `dims`, `locdims`, `locstart`, `memdims`, `memstart` -/
structure Shape (n : ℕ) where
  dims : Idx n
  locdims : Idx n
  locstart : Idx n
  memdims : Idx n
  memstart : Idx n

/-- the loop that computes the arrays: hdfdiagnostic.t 79-84, 193-198 -/
def shape (c : Container T n) : Shape (n + 1) where
  dims i := hsize (1 + c.globalMax i - c.globalMin i)
  locdims i := hsize (c.localMax i - c.localMin i + 1)
  locstart i := hsize (c.localMin i - c.globalMin i)
  memdims i := hsize (c.grid.range.hi i - c.grid.range.lo i + 1)
  memstart i := hsize (c.localMin i - c.grid.range.lo i)

/-- `dims[i]<(locstart[i]+locdims[i])`, the test for the error message: hdfdiagnostic.t 86, 204 -/
def tooLarge (s : Shape n) : Bool := decide (∃ i, s.dims i < hsize (s.locstart i + s.locdims i))

/-- A transfer fails if the selection reaches outside of the extents (HDF5 library). -/
def within (dims start count : Idx n) : Bool := decide (∀ i, start i + count i ≤ dims i)

/-- the positions of a selection relative to its start -/
def positions (count : Idx n) : Range n := ⟨fun _ => 0, fun i => count i - 1⟩

/-- the elements with one of them replaced -/
def replaced (cells : Idx n → T) (p : Idx n) (v : T) : Idx n → T := fun q => if ∀ i, q i = p i then v else cells q

/-- `H5Dwrite` with hyperslab selections in the memory and in the file -/
def put (mem : List T) (memdims memstart start count : Idx n) (cells : Idx n → T) : Option (Idx n → T) :=
  (positions count).forEachC (fun q s => s.bind fun cells =>
    (mem[(rowMajor memdims (memstart + q)).toNat]?).map fun v => replaced cells (start + q) v) (some cells)

/-- `H5Dread` with hyperslab selections in the memory and in the file -/
def fetch (cells : Idx n → T) (memdims memstart start count : Idx n) (mem : List T) : Option (List T) :=
  (positions count).forEachC (fun q s => s.bind fun mem =>
    if (rowMajor memdims (memstart + q)).toNat < mem.length then
      some (mem.set (rowMajor memdims (memstart + q)).toNat (cells (start + q)))
    else none) (some mem)

/-- `H5Dcreate` for the first write of a dataset, with parallel HDF5: hdfdiagnostic.t 227, 235-251. All elements have the value `fill`
at first. -/
def create (c : Container T n) (fill : T) : Dataset (n + 1) T := ⟨(shape c).dims, fun _ => fill⟩

/-- `HdfOStream::writeGrid` with parallel HDF5, on one process: hdfdiagnostic.t 163-331. The dataset has been created by all processes
together; this fails if they do not agree on the extents. -/
def write (c : Container T n) (D : Dataset (n + 1) T) : Outcome (Dataset (n + 1) T) :=
  let s := shape c
  if tooLarge s then .fatal
  else if D.dims ≠ s.dims then .failed
  else if !(within s.dims s.locstart s.locdims && within s.memdims s.memstart s.locdims) then .failed
  else match put c.grid.buf s.memdims s.memstart s.locstart s.locdims D.cells with
    | none => .ub
    | some cells => .ok { D with cells := cells }

/-- all processes write, in the order of the list -/
def writeAll (D : Dataset (n + 1) T) : List (Container T n) → Outcome (Dataset (n + 1) T)
  | [] => .ok D
  | c :: cs => match write c D with
    | .ok D' => writeAll D' cs
    | o => o

/-- `HdfIStream::readGrid` with parallel HDF5, on one process: hdfdiagnostic.t 53-161 -/
def read (D : Dataset (n + 1) T) (c : Container T n) : Outcome (Container T n) :=
  let s := shape c
  if tooLarge s then .fatal
  else if !(within D.dims s.locstart s.locdims && within s.memdims s.memstart s.locdims) then .failed
  else match fetch D.cells s.memdims s.memstart s.locstart s.locdims c.grid.buf with
    | none => .ub
    | some buf => .ok { c with grid := { c.grid with buf := buf } }

/-- `HdfOStream::writeGrid` without parallel HDF5: hdfdiagnostic.t 163-222, 229, 285-293: the dataset has the extents of the grid and
all of the memory is written -/
def writeSerial (c : Container T n) (fill : T) : Outcome (Dataset (n + 1) T) :=
  let s := shape c
  if tooLarge s then .fatal
  else match put c.grid.buf s.memdims (fun _ => 0) (fun _ => 0) s.memdims (fun _ => fill) with
    | none => .ub
    | some cells => .ok ⟨s.memdims, cells⟩

/-- `HdfIStream::readGrid` without parallel HDF5: hdfdiagnostic.t 53-112, 146-161: all of the dataset is read into the memory -/
def readSerial (D : Dataset (n + 1) T) (c : Container T n) : Outcome (Container T n) :=
  if tooLarge (shape c) then .fatal
  else match fetch D.cells D.dims (fun _ => 0) (fun _ => 0) D.dims c.grid.buf with
    | none => .ub
    | some buf => .ok { c with grid := { c.grid with buf := buf } }

/-! ## names of datasets -/

open Schnek.Diagnostic (decimal)

/-- the members of `HdfStream` that determine the names: hdfdiagnostic.hpp 128, 134 -/
structure Names where
  blockname : List Char
  sets_count : ℤ
deriving DecidableEq

/-- `HdfStream::HdfStream()`: hdfdiagnostic.cpp 43-54 -/
def Names.new : Names := ⟨['d', 'a', 't', 'a'], 0⟩

/-- `sets_count = 0` in `open`: hdfdiagnostic.cpp 249, 271 -/
def Names.open (s : Names) : Names := { s with sets_count := 0 }

/-- `HdfStream::setBlockName`: hdfdiagnostic.cpp 103-108 -/
def Names.setBlockName (_ : Names) (name : List Char) : Names := ⟨name, -1⟩

/-- `HdfStream::getNextBlockName`: hdfdiagnostic.cpp 115-129 -/
def Names.next (s : Names) : List Char × Names :=
  if s.sets_count < 0 then (s.blockname, { s with sets_count := 1 })
  else (s.blockname ++ decimal s.sets_count, { s with sets_count := s.sets_count + 1 })

/-- calls of a user of a stream with an open file -/
inductive NameCall (α : Type)
  | setBlockName (name : List Char)
  /-- `writeGrid` or `readGrid` -/
  | transfer (a : α)

/-- contents of a file -/
abbrev File (α : Type) := List (List Char × α)

/-- calls of an output stream; `H5Dcreate` fails (`none`) if the dataset exists: hdfdiagnostic.t 170, 235-251 -/
def writeCalls {α : Type} : Names → File α → List (NameCall α) → Option (Names × File α)
  | s, F, [] => some (s, F)
  | s, F, .setBlockName name :: l => writeCalls (s.setBlockName name) F l
  | s, F, .transfer a :: l =>
    if s.next.1 ∈ F.map Prod.fst then none else writeCalls s.next.2 (F ++ [(s.next.1, a)]) l

/-- calls of an input stream; `H5Dopen` fails if the dataset does not exist: hdfdiagnostic.t 56, 107-114 -/
def readCalls {α : Type} (F : File α) : Names → List (NameCall Unit) → Option (List α)
  | _, [] => some []
  | s, .setBlockName name :: l => readCalls F (s.setBlockName name) l
  | s, .transfer () :: l => do
    let a ← F.lookup s.next.1
    let r ← readCalls F s.next.2 l
    return a :: r

/-- the calls that `HDFGridDiagnostic::write` makes, with the name from `getDatasetName`: hdfdiagnostic.t 393-399 -/
def diagnosticWrite {α : Type} (name : List Char) (a : α) : List (NameCall α) := [.setBlockName name, .transfer a]

/-! ## files -/

/-- the HDF5 library's table of open files, and the streams of a program -/
structure Files where
  /-- number of files opened so far; file ids are not used again -/
  fresh : ℕ
  /-- ids of the files that are open -/
  isOpen : List ℕ
  /-- `file_id` of each stream, `none` is -1; streams that do not exist any more are not in the list -/
  streams : List (ℕ × Option ℕ)

/-- operations on streams; streams are denoted by numbers chosen by the program -/
inductive FileCall
  /-- default constructor: hdfdiagnostic.cpp 43-54 -/
  | construct (s : ℕ)
  /-- `HdfIStream::open`: hdfdiagnostic.cpp 193-251 -/
  | openInput (s : ℕ)
  /-- `HdfOStream::open`: hdfdiagnostic.cpp 270-337 -/
  | openOutput (s : ℕ)
  /-- `close`: hdfdiagnostic.cpp 90-96 -/
  | close (s : ℕ)
  /-- destructor: hdfdiagnostic.cpp 85-88 -/
  | destroy (s : ℕ)
  /-- copy constructor of `s` from `s'`: hdfdiagnostic.cpp 56-67 -/
  | copy (s s' : ℕ)
  /-- assignment of `s'` to `s`: hdfdiagnostic.cpp 69-83 -/
  | assign (s s' : ℕ)
deriving DecidableEq

/-- the stream with number `s` -/
def Files.stream (w : Files) (s : ℕ) : Option (Option ℕ) := w.streams.lookup s

/-- change the `file_id` of a stream -/
def Files.setStream (w : Files) (s : ℕ) (id : Option ℕ) : Files :=
  { w with streams := w.streams.map fun x => if x.1 = s then (s, id) else x }

/-- `H5Fclose`; `none` if the file is not open -/
def Files.fclose (w : Files) (id : ℕ) : Option Files :=
  if id ∈ w.isOpen then some { w with isOpen := w.isOpen.erase id } else none

/-- `HdfStream::close`: hdfdiagnostic.cpp 90-96 -/
def Files.closeStream (w : Files) (s : ℕ) : Option Files :=
  match w.stream s with
  | none => none
  | some none => some w
  | some (some id) => (w.fclose id).map fun w => w.setStream s none

/-- `H5Fopen`, `H5Fcreate`, assumed to be successful: hdfdiagnostic.cpp 246, 327 -/
def Files.fopen (w : Files) (s : ℕ) : Files :=
  { w.setStream s (some w.fresh) with fresh := w.fresh + 1, isOpen := w.fresh :: w.isOpen }

/-- one call; `none`: the stream does not exist, or a file is closed that is not open -/
def Files.call (w : Files) : FileCall → Option Files
  | .construct s => if (w.stream s).isSome then none else some { w with streams := (s, none) :: w.streams }
  | .openInput s => (w.closeStream s).map fun w => w.fopen s
  | .openOutput s => if (w.stream s).isSome then some (w.fopen s) else none
  | .close s => w.closeStream s
  | .destroy s => (w.closeStream s).map fun w => { w with streams := w.streams.filter fun x => x.1 ≠ s }
  | .copy s s' => if (w.stream s).isSome then none else (w.stream s').map fun id => { w with streams := (s, id) :: w.streams }
  | .assign s s' => if (w.stream s).isSome then (w.stream s').map fun id => w.setStream s id else none

/-- a sequence of calls -/
def Files.calls (w : Files) (l : List FileCall) : Option Files := l.foldlM Files.call w

/-- before the first call -/
def Files.init : Files := ⟨0, [], []⟩

end Schnek.Hdf
