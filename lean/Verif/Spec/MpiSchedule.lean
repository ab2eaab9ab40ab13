import Verif.Model.MpiSchedule

/-!
# What it means that a parallel program works at any pace
-/

namespace Schnek.Spec

open Schnek Schnek.Mpi

variable {P G T : Type} [DecidableEq P]

/-- Whatever the order in which the processes go on, and whichever messages MPI buffers: the number of steps is bounded; nobody ever does
anything that is not allowed; until all processes have finished there is one that can go on; and when all have
finished, no message is left and `result` holds. -/
def Completes (code : P → List (Instr P G T)) (begin : Config P G T) (result : (P → G) → Prop) : Prop :=
  ∀ buffered : P → ℕ → Bool,
    (∃ N, ∀ k C, Steps code buffered k begin C → k ≤ N) ∧
    ∀ k C, Steps code buffered k begin C →
      ¬ C.Faulty code ∧
      (¬ C.Finished code → ∃ C', Step code buffered C C') ∧
      (C.Finished code → (∀ a b, C.chan a b = []) ∧ result fun p => (C.proc p).mem.grid)

/-- The global field after `k` time steps: in each, the new value of a cell follows from the values around it in the periodically continued
field. `F t p v` is the new value of cell `p` in step `t`, if `v o` is the old value of the cell at distance `o`. `N i` is the number of
cells in direction `i`. -/
def evolve {n : ℕ} (N : Idx n) (F : ℕ → Idx n → (Idx n → T) → T) : ℕ → (Idx n → T) → Idx n → T
  | 0, φ => φ
  | t + 1, φ => fun p => F t p fun o => evolve N F t φ fun i => (p i + o i) % N i

/-- `F` uses only values at a distance of at most `δ` cells in each direction -/
def Reaches {n : ℕ} (δ : ℤ) (F : ℕ → Idx n → (Idx n → T) → T) : Prop :=
  ∀ t p v w, (∀ o : Idx n, (∀ i, |o i| ≤ δ) → v o = w o) → F t p v = F t p w

end Schnek.Spec
