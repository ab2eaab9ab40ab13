import Verif.Model.MpiAccumulate

/-!
# The processes of a parallel program, each at its own pace

`src/grid/mpisubdivision.t`. In `Verif.Model.Mpi` and `Verif.Model.MpiAccumulate` all processes call `MPI_Sendrecv` at the same time. Here
each process executes its own instructions, in any interleaving with the others. Of MPI the following is used: a message is put into a
queue for the receiver, messages from one process to another (with the same communicator and tag) are received in the order in
which they have been sent, and `MPI_Sendrecv` returns when a message has been received and the message of its own has been taken over,
either by MPI, if it buffers the message, or else by the receiver. Sending and receiving may happen in any order. `MPI_Allreduce` returns at
the earliest when all processes have called it; the calls of the processes belong together in the order in which they are made.
-/

namespace Schnek.Mpi

variable {n : ℕ} {P G T : Type}

/-- The memory of a process: its grid (or whatever the program works with), `sendarr[dim]` and `recvarr[dim]`, mpisubdivision.hpp 79-82.
The buffers of the dimensions are not distinguished: a send buffer is filled anew for each call, a receive buffer is read right
after the call. -/
structure Memory (G T : Type) where
  grid : G
  send : List T
  recv : List T

/-- What a process does. -/
inductive Instr (P G T : Type)
  /-- some computation in its own memory -/
  | compute (f : Memory G T → Memory G T → Prop)
  /-- `MPI_Sendrecv(send, sendCount, type, dest, 0, recv, recvCount, type, source, 0, comm, &stat)`. The counts may be variables of the
  program. -/
  | sendrecv (dest source : P) (sendCount recvCount : G → ℤ)
  /-- `MPI_Allreduce(send, recv, 1, type, op, comm)`: what may be received if the processes send this -/
  | allreduce (op : (P → List T) → List T → Prop)

/-- The state of a process. -/
structure Proc (G T : Type) where
  mem : Memory G T
  /-- number of the next instruction -/
  pc : ℕ
  /-- during `MPI_Sendrecv`: the message has been sent; during `MPI_Allreduce`: the value has been handed over -/
  posted : Bool
  /-- during `MPI_Sendrecv`: a message has been received -/
  received : Bool
  /-- the number of calls of `MPI_Allreduce` that have returned -/
  calls : ℕ

/-- The state of all processes, the messages that have been sent but not received: `chan a b` those from `a` to `b`, and what each process
has handed over to `MPI_Allreduce` so far. -/
structure Config (P G T : Type) where
  proc : P → Proc G T
  chan : P → P → List (List T)
  coll : P → List (List T)

/-- all processes before their first instruction -/
def Config.start (W : P → Memory G T) : Config P G T := ⟨fun p => ⟨W p, 0, false, false, 0⟩, fun _ _ => [], fun _ => []⟩

variable [DecidableEq P]

/-- process `p` is now in this state -/
def Config.set (C : Config P G T) (p : P) (q : Proc G T) : Config P G T := { C with proc := Function.update C.proc p q }

/-- these are now the messages from `a` to `b` -/
def Config.setChan (C : Config P G T) (a b : P) (l : List (List T)) : Config P G T :=
  { C with chan := Function.update C.chan a (Function.update (C.chan a) b l) }

/-- this is now what `p` has handed over -/
def Config.setColl (C : Config P G T) (p : P) (l : List (List T)) : Config P G T := { C with coll := Function.update C.coll p l }

/-- One process goes on. `code p` are the instructions of `p`; `buffered p k` says whether MPI buffers the message that `p` sends in its
instruction number `k`. -/
inductive Step (code : P → List (Instr P G T)) (buffered : P → ℕ → Bool) : Config P G T → Config P G T → Prop
  /-- a computation -/
  | compute {C p f m} (hi : (code p)[(C.proc p).pc]? = some (.compute f)) (hf : f (C.proc p).mem m) :
      Step code buffered C (C.set p ⟨m, (C.proc p).pc + 1, false, false, (C.proc p).calls⟩)
  /-- the message is sent -/
  | post {C p dest source sendCount recvCount} (hi : (code p)[(C.proc p).pc]? = some (.sendrecv dest source sendCount recvCount))
      (hp : (C.proc p).posted = false) (hc : ((C.proc p).mem.send.length : ℤ) = sendCount (C.proc p).mem.grid) :
      Step code buffered C ((C.set p { C.proc p with posted := true }).setChan p dest (C.chan p dest ++ [(C.proc p).mem.send]))
  /-- a message is received -/
  | receive {C p dest source sendCount recvCount m ms} (hi : (code p)[(C.proc p).pc]? = some (.sendrecv dest source sendCount recvCount))
      (hr : (C.proc p).received = false) (hm : C.chan source p = m :: ms) (hc : (m.length : ℤ) ≤ recvCount (C.proc p).mem.grid) :
      Step code buffered C
        ((C.set p { C.proc p with mem := { (C.proc p).mem with recv := m }, received := true }).setChan source p ms)
  /-- the call returns. As only `p` sends messages from `p` to `dest`, its message has been received if there is none left. -/
  | complete {C p dest source sendCount recvCount} (hi : (code p)[(C.proc p).pc]? = some (.sendrecv dest source sendCount recvCount))
      (hp : (C.proc p).posted = true) (hr : (C.proc p).received = true)
      (hb : buffered p (C.proc p).pc = true ∨ C.chan p dest = []) :
      Step code buffered C (C.set p ⟨(C.proc p).mem, (C.proc p).pc + 1, false, false, (C.proc p).calls⟩)
  /-- `MPI_Allreduce` takes over the value -/
  | enter {C p op} (hi : (code p)[(C.proc p).pc]? = some (.allreduce op)) (hp : (C.proc p).posted = false)
      (hc : (C.proc p).mem.send.length = 1) :
      Step code buffered C ((C.set p { C.proc p with posted := true }).setColl p (C.coll p ++ [(C.proc p).mem.send]))
  /-- `MPI_Allreduce` returns; all processes have handed over their values -/
  | leave {C p op x m} (hi : (code p)[(C.proc p).pc]? = some (.allreduce op)) (hp : (C.proc p).posted = true)
      (hx : ∀ q, (C.coll q)[(C.proc p).calls]? = some (x q)) (ho : op x m) :
      Step code buffered C
        (C.set p ⟨{ (C.proc p).mem with recv := m }, (C.proc p).pc + 1, false, false, (C.proc p).calls + 1⟩)

/-- so many steps -/
inductive Steps (code : P → List (Instr P G T)) (buffered : P → ℕ → Bool) : ℕ → Config P G T → Config P G T → Prop
  | zero (C) : Steps code buffered 0 C C
  | succ {k C C' C''} : Steps code buffered k C C' → Step code buffered C' C'' → Steps code buffered (k + 1) C C''

/-- Some process does something that is not allowed: an access outside of a grid or a buffer in a computation, a send
buffer whose length is not the number of values sent, a message that does not fit the receive buffer, or a reduction that is not defined
(overflow). -/
def Config.Faulty (code : P → List (Instr P G T)) (C : Config P G T) : Prop :=
  ∃ p, match (code p)[(C.proc p).pc]? with
    | some (.compute f) => ∀ m, ¬ f (C.proc p).mem m
    | some (.sendrecv _ source sendCount recvCount) =>
        ((C.proc p).posted = false ∧ ((C.proc p).mem.send.length : ℤ) ≠ sendCount (C.proc p).mem.grid) ∨
        ((C.proc p).received = false ∧ ∃ m ms, C.chan source p = m :: ms ∧ recvCount (C.proc p).mem.grid < (m.length : ℤ))
    | some (.allreduce op) =>
        ((C.proc p).posted = false ∧ (C.proc p).mem.send.length ≠ 1) ∨
        ((C.proc p).posted = true ∧ ∃ x, (∀ q, (C.coll q)[(C.proc p).calls]? = some (x q)) ∧ ∀ m, ¬ op x m)
    | none => False

/-- All processes have executed all their instructions. -/
def Config.Finished (code : P → List (Instr P G T)) (C : Config P G T) : Prop := ∀ p, (C.proc p).pc = (code p).length

/-! ## the instructions of `exchange` and `accumulate` -/

variable {S : Setup n}

/-- fill the send buffer: mpisubdivision.t 172-186, 206-220, 267-281, 328-342 -/
def gatherInstr (S : Setup n) (dim : Fin n) (c : Coord S) (r : Range n) : Instr (Coord S) (GridMap n T) T :=
  .compute fun m m' => ∃ size buf, exchSize (bounds S c) dim = some size ∧ Gather r m.grid size buf ∧ m' = { m with send := buf }

/-- copy the receive buffer to the grid: mpisubdivision.t 191-202, 225-236, 307-321, 368-382 -/
def scatterInstr (S : Setup n) (r : Range n) : Instr (Coord S) (GridMap n T) T :=
  .compute fun m m' => ∃ g, Scatter r m.recv m.grid g ∧ m' = { m with grid := g }

/-- add the receive buffer to the grid and fill the send buffer with the sums: mpisubdivision.t 287-301, 348-362 -/
def addInstr [Add T] (S : Setup n) (r : Range n) : Instr (Coord S) (GridMap n T) T :=
  .compute fun m m' => ∃ g back, AddScatter r m.recv m.grid g back ∧ m' = { m with grid := g, send := back }

/-- `MPI_Sendrecv` with `exchSize[dim]` values: mpisubdivision.t 188-190, 222-224, 283-285, 303-305, 344-346, 364-366 -/
def sendrecvInstr (S : Setup n) (dim : Fin n) (c dest source : Coord S) : Instr (Coord S) (GridMap n T) T :=
  .sendrecv dest source (fun _ => (exchSize (bounds S c) dim).getD 0) (fun _ => (exchSize (bounds S c) dim).getD 0)

/-- `exchange(grid, dim)` in the process `c`: mpisubdivision.t 153-237. -/
def exchangeDimCode (S : Setup n) (c : Coord S) (dim : Fin n) : List (Instr (Coord S) (GridMap n T) T) :=
  [gatherInstr S dim c ((bounds S c).ghostSourceDomain dim .max),
   sendrecvInstr S dim c (next S c dim) (prev S c dim),
   scatterInstr S ((bounds S c).ghostDomain dim .min),
   gatherInstr S dim c ((bounds S c).ghostSourceDomain dim .min),
   sendrecvInstr S dim c (prev S c dim) (next S c dim),
   scatterInstr S ((bounds S c).ghostDomain dim .max)]

/-- `exchange(grid)` in the process `c`: domainsubdivision.hpp 228-230. -/
def exchangeCode (S : Setup n) (c : Coord S) : List (Instr (Coord S) (GridMap n T) T) :=
  (List.finRange n).flatMap (exchangeDimCode S c)

/-- `accumulate(grid, dim)` in the process `c`: mpisubdivision.t 240-383. -/
def accumulateDimCode [Add T] (S : Setup n) (c : Coord S) (dim : Fin n) : List (Instr (Coord S) (GridMap n T) T) :=
  [gatherInstr S dim c ((bounds S c).ghostSourceDomain dim .max),
   sendrecvInstr S dim c (next S c dim) (prev S c dim),
   addInstr S ((bounds S c).ghostDomain dim .min),
   sendrecvInstr S dim c (prev S c dim) (next S c dim),
   scatterInstr S ((bounds S c).ghostSourceDomain dim .max),
   gatherInstr S dim c ((bounds S c).ghostSourceDomain dim .min),
   sendrecvInstr S dim c (prev S c dim) (next S c dim),
   addInstr S ((bounds S c).ghostDomain dim .max),
   sendrecvInstr S dim c (next S c dim) (prev S c dim),
   scatterInstr S ((bounds S c).ghostSourceDomain dim .min)]

/-- `accumulate(grid)` in the process `c`: domainsubdivision.hpp 232-234. -/
def accumulateCode [Add T] (S : Setup n) (c : Coord S) : List (Instr (Coord S) (GridMap n T) T) :=
  (List.finRange n).flatMap (accumulateDimCode S c)

end Schnek.Mpi
