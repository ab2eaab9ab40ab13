import Verif.Model.ParallelProgram

/-!
# Parallel programs with branches and loops

The programs of `Model/ParallelProgram.lean` are sequences of calls. Here they have branches and loops whose conditions depend on the data of
the process, as in `while (time < end) { … dt = subdivision.minReduce(…); … }`. Each process decides for itself, when it gets there.
-/

namespace Schnek.Mpi

open Schnek Schnek.Buffer

variable {n : ℕ} {P X D T F : Type}

/-- A program. `X` is the data of a process. -/
inductive Stmt (S : Setup n) (X T F : Type)
  /-- nothing -/
  | skip
  /-- a call of one of the functions of mpisubdivision.t 152-473, or a computation -/
  | call (c : Call S X T F)
  /-- one after the other -/
  | seq (a b : Stmt S X T F)
  /-- `if (cond) a else b` -/
  | choice (cond : Coord S → X → Bool) (a b : Stmt S X T F)
  /-- `while (cond) body` -/
  | loop (cond : Coord S → X → Bool) (body : Stmt S X T F)

/-- What a process still has to do: instructions of the call it is in, or statements of the program. -/
inductive Todo (S : Setup n) (X T F : Type)
  | instr (i : Instr (Coord S) X (Datum T F))
  | stmt (s : Stmt S X T F)

/-- A statement is begun in the process `c` with the data `x`: conditions are evaluated, calls become the instructions of
mpisubdivision.t 152-473. -/
def Stmt.begin [Add T] [LinearOrder F] (S : Setup n) (fresh : ℕ → List Byte) (rnd : ℚ → ℚ) (c : Coord S) (x : X) :
    Stmt S X T F → List (Todo S X T F)
  | .skip => []
  | .call f => (f.code S fresh rnd c).map .instr
  | .seq a b => [.stmt a, .stmt b]
  | .choice cond a b => if cond c x then [.stmt a] else [.stmt b]
  | .loop cond body => if cond c x then [.stmt body, .stmt (.loop cond body)] else []

/-- The instruction that is executed next. To begin a statement changes no data. -/
def nextInstr {S : Setup n} : List (Todo S X T F) → Option (Instr (Coord S) X (Datum T F))
  | [] => none
  | .instr i :: _ => some i
  | .stmt _ :: _ => some (.compute fun m m' => m' = m)

/-- What is to be done after this instruction. `x` are the data of the process before it. -/
def after [Add T] [LinearOrder F] (S : Setup n) (fresh : ℕ → List Byte) (rnd : ℚ → ℚ) (c : Coord S) (x : X) :
    List (Todo S X T F) → List (Todo S X T F)
  | [] => []
  | .instr _ :: rest => rest
  | .stmt s :: rest => s.begin S fresh rnd c x ++ rest

/-- The state of all processes. In `base`, `pc` is the number of instructions the process has executed. -/
structure Cluster (S : Setup n) (X T F : Type) where
  base : Config (Coord S) X (Datum T F)
  todo : Coord S → List (Todo S X T F)

/-- Before the first instruction: all processes have to execute the program `s`. -/
def Cluster.start {S : Setup n} (s : Stmt S X T F) (M : Coord S → Memory X (Datum T F)) : Cluster S X T F :=
  ⟨Config.start M, fun _ => [.stmt s]⟩

/-- In this code, the next instruction of each process is the one it has to execute. -/
def Cluster.code {S : Setup n} (A : Cluster S X T F) (c : Coord S) : List (Instr (Coord S) X (Datum T F)) :=
  match nextInstr (A.todo c) with
  | none => []
  | some i => List.replicate ((A.base.proc c).pc + 1) i

/-- One process goes on, as in `Model/MpiSchedule.lean`. If it has finished its instruction, it goes to the next one. -/
def Cluster.Step [Add T] [LinearOrder F] (S : Setup n) (fresh : ℕ → List Byte) (rnd : ℚ → ℚ) (buffered : Coord S → ℕ → Bool)
    (A A' : Cluster S X T F) : Prop :=
  Mpi.Step A.code buffered A.base A'.base ∧
  ∀ c, A'.todo c = if (A'.base.proc c).pc = (A.base.proc c).pc then A.todo c
    else after S fresh rnd c (A.base.proc c).mem.grid (A.todo c)

/-- so many steps -/
inductive Cluster.Steps [Add T] [LinearOrder F] (S : Setup n) (fresh : ℕ → List Byte) (rnd : ℚ → ℚ) (buffered : Coord S → ℕ → Bool) :
    ℕ → Cluster S X T F → Cluster S X T F → Prop
  | zero (A) : Steps S fresh rnd buffered 0 A A
  | succ {k A A' A''} : Steps S fresh rnd buffered k A A' → Cluster.Step S fresh rnd buffered A' A'' →
      Steps S fresh rnd buffered (k + 1) A A''

/-- Some process does something that is not allowed, see `Config.Faulty`. -/
def Cluster.Faulty {S : Setup n} (A : Cluster S X T F) : Prop := A.base.Faulty A.code

/-- No process has anything left to do. -/
def Cluster.Finished {S : Setup n} (A : Cluster S X T F) : Prop := ∀ c, A.todo c = []

end Schnek.Mpi
