import Verif.Model.ParallelProgram

/-!
# Processes that stop

A process of a parallel program may end at any time: it is killed, or an exception that is not caught ends it. The other processes are not told.
-/

namespace Schnek.Mpi

variable {P G T : Type} [DecidableEq P]

/-- The states that may be reached when processes stop. `dead` are the processes that have stopped so far, `first` those which had
already stopped at the begin. Messages of such a process that have not been received yet may
get lost, the later ones before the earlier ones. -/
inductive CrashRun (code : P → List (Instr P G T)) (buffered : P → ℕ → Bool) (first : Set P) (begin : Config P G T) : Set P → Config P G T → Prop
  /-- the begin -/
  | start : CrashRun code buffered first begin first begin
  /-- a process that has not stopped goes on -/
  | step {dead C C'} (h : CrashRun code buffered first begin dead C) (hs : Step code buffered C C') (hd : ∀ q ∈ dead, C'.proc q = C.proc q) :
      CrashRun code buffered first begin dead C'
  /-- process `p` stops -/
  | crash {dead C} (p : P) (h : CrashRun code buffered first begin dead C) : CrashRun code buffered first begin (insert p dead) C
  /-- messages from `p` to `b` are lost -/
  | lose {dead C} {p : P} (b : P) {l l' : List (List T)} (h : CrashRun code buffered first begin dead C) (hp : p ∈ dead) (hl : C.chan p b = l ++ l') :
      CrashRun code buffered first begin dead (C.setChan p b l)

end Schnek.Mpi
