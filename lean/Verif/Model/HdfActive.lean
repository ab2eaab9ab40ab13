import Mathlib.Data.List.FinRange
import Mathlib.Data.Fin.Basic

/-!
# Model of streams of which only some processes are active

`HdfStream::setActive` and `HdfStream::makeMPIGroup`, and what depends on them, with parallel HDF5:
`src/diagnostic/hdfdiagnostic.hpp` 118-177, `hdfdiagnostic.cpp` 43-174, 180-191, 193-337, `hdfdiagnostic.t` 53-161, 163-331.

There are `N` processes. Each of them has one object for the stream. What is written is not modelled here, see `Model/Hdf.lean`. MPI and HDF5
are represented by their rules for collective calls: they end only if all processes of the communicator make the call. The destructor is not
called.
-/

namespace Schnek.Hdf.Active

variable {N : ℕ}

/-- a value of type `MPI_Comm` -/
inductive Comm (N : ℕ)
  /-- not initialised -/
  | unset
  /-- `MPI_COMM_NULL` -/
  | null
  /-- a communicator with these processes, in the order of their ranks -/
  | group (l : List (Fin N))
deriving DecidableEq

/-- `MPI_COMM_WORLD` -/
def commWorld : Comm N := .group (List.finRange N)

/-- The process belongs to the communicator. -/
def Comm.has : Comm N → Fin N → Bool
  | .group l, p => l.contains p
  | _, _ => false

/-- the kinds of streams, `HdfIStream` and `HdfOStream` -/
inductive Kind
  | input | output
deriving DecidableEq

/-- The object of one process: hdfdiagnostic.hpp 121-138, 174-175, 207-212. `comm` is `mpiComm`, `plist` the communicator in the property list
`plist_id` (`initialised` and `plist_id` are members of `HdfOStream` only), `file` is `file_id`, the number of the file in the order in
which they have been opened, `none` for -1. -/
structure Proc (N : ℕ) where
  active : Bool
  modified : Bool
  commSet : Bool
  comm : Comm N
  file : Option ℕ
  initialised : Bool
  plist : Comm N
deriving DecidableEq

/-- One call of `writeGrid` or `readGrid`: the file, the processes that took part, and whether attributes have been written. -/
structure Transfer (N : ℕ) where
  file : ℕ
  who : List (Fin N)
  attributes : Bool
deriving DecidableEq

/-- The objects of all processes, the processes of each file that has been opened (none: no file has been made), and the transfers. -/
structure World (N : ℕ) where
  procs : Fin N → Proc N
  files : List (List (Fin N))
  transfers : List (Transfer N)

/-- What can happen instead of success. -/
inductive Err
  /-- a process waits for others and these do not make the call: it waits forever -/
  | stuck
  /-- a call with a communicator that is not initialised, or to which the process does not belong -/
  | invalid
  /-- two groups of processes make the same file at the same time, each for itself -/
  | conflict
  /-- an HDF5 call fails, `assert` -/
  | failed
deriving DecidableEq

/-- Constructors: hdfdiagnostic.cpp 43-54, 180-181, 256-258 -/
def Proc.new : Proc N := ⟨true, false, false, .unset, none, false, .unset⟩

/-- The stream has been made in all processes. -/
def World.start : World N := ⟨fun _ => .new, [], []⟩

/-- A collective call: each process that makes the call gives the object of the call and a communicator. -/
def collective (call : Fin N → Option (ℕ × Comm N)) : Except Err Unit :=
  if (List.finRange N).any fun p => (call p).any fun kc => !kc.2.has p then .error .invalid
  else if (List.finRange N).any fun p => (call p).any fun kc =>
      (List.finRange N).any fun q => kc.2.has q && decide (call q ≠ some kc) then .error .stuck
  else .ok ()

/-- the sum made by `MPI_Allreduce`, one number per process: hdfdiagnostic.cpp 150-156 -/
def activeArr (w : World N) (i : Fin N) : ℕ :=
  ((List.finRange N).map fun rank => if (w.procs rank).active then (if i = rank then 1 else 0) else 0).sum

/-- the loop that collects the active processes: hdfdiagnostic.cpp 158-165 -/
def activeGroup (w : World N) : List (Fin N) := (List.finRange N).filter fun i => 0 < activeArr w i

/-- `makeMPIGroup` in one process, when the active processes are `l`: hdfdiagnostic.cpp 134-141, 167-173. `MPI_Comm_create` gives
`MPI_COMM_NULL` to the processes that are not in the group. -/
def Proc.group (o : Proc N) (p : Fin N) (l : List (Fin N)) : Proc N :=
  if o.modified then { o with comm := if p ∈ l then .group l else .null, modified := false }
  else if o.commSet then o
  else { o with comm := commWorld, commSet := true }

/-- `makeMPIGroup`, in the processes `who`: hdfdiagnostic.cpp 132-174 -/
def makeGroup (w : World N) (who : Fin N → Bool) : Except Err (World N) := do
  collective fun p => if who p && (w.procs p).modified then some (0, commWorld) else none
  return { w with procs := fun p => if who p then (w.procs p).group p (activeGroup w) else w.procs p }

/-- `HdfStream::close`, in the processes `who`: hdfdiagnostic.cpp 90-96. `H5Fclose` is collective. -/
def close (w : World N) (who : Fin N → Bool) : Except Err (World N) := do
  collective fun p => if who p then (w.procs p).file.map fun k => (k, .group (w.files[k]?.getD [])) else none
  return { w with procs := fun p => if who p then { w.procs p with file := none } else w.procs p }

/-- `H5Fopen` or `H5Fcreate` by the processes `who`, with the communicators `comm` -/
def openFile (w : World N) (who : Fin N → Bool) (comm : Fin N → Comm N) : Except Err (World N) := do
  collective fun p => if who p then some (w.files.length, comm p) else none
  if (List.finRange N).any fun p => (List.finRange N).any fun q => who p && who q && decide (comm p ≠ comm q) then .error .conflict
  else return { w with
    procs := fun p => if who p then { w.procs p with file := some w.files.length } else w.procs p
    files := w.files ++ [(List.finRange N).filter who] }

/-- `HdfIStream::open`, in the processes `who`: hdfdiagnostic.cpp 193-251 -/
def openInput (w : World N) (who : Fin N → Bool) : Except Err (World N) := do
  let w ← close w who
  let w ← makeGroup w who
  openFile w (fun p => who p && (w.procs p).active) fun p => (w.procs p).comm

/-- the property list is made by the first call of `open` only: hdfdiagnostic.cpp 285-312, 318-323 -/
def Proc.prepare (o : Proc N) : Proc N := if o.initialised then o else { o with plist := o.comm, initialised := true }

/-- `HdfOStream::open`, in the processes `who`: hdfdiagnostic.cpp 270-337. -/
def openOutput (w : World N) (who : Fin N → Bool) : Except Err (World N) := do
  let w ← makeGroup w who
  let opens : Fin N → Bool := fun p => who p && (w.procs p).active
  let w := { w with procs := fun p => if opens p then (w.procs p).prepare else w.procs p }
  openFile w opens fun p => (w.procs p).plist

/-- `writeGrid` in the processes `who`, as far as the processes are concerned: hdfdiagnostic.t 166-168, 235-251 (`H5Dcreate` is collective),
297-302 (the attributes are written by the process with number 0) -/
def writeGrid (w : World N) (who : Fin N → Bool) : Except Err (World N) := do
  let writes : Fin N → Bool := fun p => who p && (w.procs p).active
  if (List.finRange N).any fun p => writes p && (w.procs p).file.isNone then .error .failed
  else
    collective fun p => if writes p then (w.procs p).file.map fun k => (k, .group (w.files[k]?.getD [])) else none
    match (List.finRange N).filter writes with
    | [] => return w
    | p :: l => return { w with
        transfers := w.transfers ++ [⟨(w.procs p).file.getD 0, p :: l, (List.finRange N).any fun q => decide (q.val = 0) && writes q⟩] }

/-- `readGrid` in the processes `who`: hdfdiagnostic.t 53-161. Nothing is collective. -/
def readGrid (w : World N) (who : Fin N → Bool) : Except Err (World N) :=
  if (List.finRange N).any fun p => who p && (w.procs p).file.isNone then .error .failed
  else match (List.finRange N).filter who with
    | [] => .ok w
    | p :: l => .ok { w with transfers := w.transfers ++ [⟨(w.procs p).file.getD 0, p :: l, false⟩] }

/-- What a program does. Each call is made by some processes, at the same place of the program. -/
inductive Call (N : ℕ)
  /-- `setActive`; `none` for a process that does not call it -/
  | setActive (value : Fin N → Option Bool)
  | open (who : Fin N → Bool)
  /-- `writeGrid` for output streams, `readGrid` for input streams -/
  | transfer (who : Fin N → Bool)
  | close (who : Fin N → Bool)
  /-- All processes go on with a copy of the stream: hdfdiagnostic.cpp 56-67, 189-191, 260-262. `plist_id` and `mpiComm` of the copy are not
  initialised. Simplification: the stream has no open file, or it stays open. -/
  | copy

/-- `setActive`: hdfdiagnostic.hpp 166 -/
def Proc.setActive (o : Proc N) : Option Bool → Proc N
  | none => o
  | some b => { o with active := b, modified := true }

/-- the copy constructors: hdfdiagnostic.cpp 56-67, 189-191, 260-262 -/
def Proc.copied (o : Proc N) : Proc N := ⟨true, false, false, .unset, o.file, o.initialised, .unset⟩

/-- one call -/
def call (kind : Kind) (w : World N) : Call N → Except Err (World N)
  | .setActive value => .ok { w with procs := fun p => (w.procs p).setActive (value p) }
  | .open who => match kind with
    | .input => openInput w who
    | .output => openOutput w who
  | .transfer who => match kind with
    | .input => readGrid w who
    | .output => writeGrid w who
  | .close who => Active.close w who
  | .copy => .ok { w with procs := fun p => (w.procs p).copied }

/-- a sequence of calls -/
def run (kind : Kind) (w : World N) (l : List (Call N)) : Except Err (World N) := l.foldlM (call kind) w

end Schnek.Hdf.Active
