import Verif.Model.ControlFlow
import Verif.Spec.ParallelProgram

/-!
# What a parallel program with branches and loops does

in terms of the data of all processes, as if they went together.
-/

namespace Schnek.Spec

open Schnek Schnek.Mpi Schnek.Buffer

variable {n : ℕ} {S : Setup n} {X T F : Type}

/-- all processes come to the same decision -/
def Agree (cond : Coord S → X → Bool) (x : Coord S → X) (v : Bool) : Prop := ∀ c, cond c (x c) = v

/-- If all processes together begin with the data `x` and execute these statements one after the other, then the requirements of each call
are met, all processes come to the same decision in each branch and each loop, the end is reached, and there `Q` holds. -/
inductive Achieves [AddCommMonoid T] [LinearOrder F] (Q : (Coord S → X) → Prop) : List (Stmt S X T F) → (Coord S → X) → Prop
  | done {x} : Q x → Achieves Q [] x
  | skip {rest x} : Achieves Q rest x → Achieves Q (.skip :: rest) x
  | call {f rest x} : Ready f x → (∀ x', Does f x x' → Achieves Q rest x') → Achieves Q (.call f :: rest) x
  | seq {a b rest x} : Achieves Q (a :: b :: rest) x → Achieves Q (.seq a b :: rest) x
  | choice {cond a b rest x} (v : Bool) : Agree cond x v → Achieves Q ((if v then a else b) :: rest) x →
      Achieves Q (.choice cond a b :: rest) x
  | again {cond body rest x} : Agree cond x true → Achieves Q (body :: .loop cond body :: rest) x → Achieves Q (.loop cond body :: rest) x
  | leave {cond body rest x} : Agree cond x false → Achieves Q rest x → Achieves Q (.loop cond body :: rest) x

/-- `R` is kept if all processes together go one statement further, the requirements of each call are met, and all processes
come to the same decision. -/
def Kept [AddCommMonoid T] [LinearOrder F] (R : List (Stmt S X T F) → (Coord S → X) → Prop) : Prop :=
  ∀ l x, R l x → match l with
    | [] => True
    | .skip :: rest => R rest x
    | .call f :: rest => Ready f x ∧ ∀ x', Does f x x' → R rest x'
    | .seq a b :: rest => R (a :: b :: rest) x
    | .choice cond a b :: rest => ∃ v, Agree cond x v ∧ R ((if v then a else b) :: rest) x
    | .loop cond body :: rest => Agree cond x true ∧ R (body :: .loop cond body :: rest) x ∨ Agree cond x false ∧ R rest x

/-- The program need not end, but the requirements of each call are met, and all processes come to the same decision in each branch and
loop. -/
def GoesOn [AddCommMonoid T] [LinearOrder F] (s : Stmt S X T F) (x : Coord S → X) : Prop :=
  ∃ R : List (Stmt S X T F) → (Coord S → X) → Prop, R [s] x ∧ Kept R

/-- Whatever the order in which the processes go on, and whichever messages MPI buffers: nobody ever does anything that is not allowed,
and until all processes have finished there is one that can go on. -/
def NeverStuck [Add T] [LinearOrder F] (S : Setup n) (fresh : ℕ → List Byte) (rnd : ℚ → ℚ) (s : Stmt S X T F)
    (M : Coord S → Memory X (Datum T F)) : Prop :=
  ∀ (buffered : Coord S → ℕ → Bool) k A, Cluster.Steps S fresh rnd buffered k (.start s M) A →
    ¬ A.Faulty ∧ (¬ A.Finished → ∃ A', Cluster.Step S fresh rnd buffered A A')

/-- The number of steps is bounded, and when all processes have finished, no message is left and `result` holds. -/
def EndsWith [Add T] [LinearOrder F] (S : Setup n) (fresh : ℕ → List Byte) (rnd : ℚ → ℚ) (s : Stmt S X T F)
    (M : Coord S → Memory X (Datum T F)) (result : (Coord S → X) → Prop) : Prop :=
  ∀ buffered : Coord S → ℕ → Bool,
    (∃ N, ∀ k A, Cluster.Steps S fresh rnd buffered k (.start s M) A → k ≤ N) ∧
    ∀ k A, Cluster.Steps S fresh rnd buffered k (.start s M) A → A.Finished →
      (∀ a b, A.base.chan a b = []) ∧ result fun c => (A.base.proc c).mem.grid

end Schnek.Spec
