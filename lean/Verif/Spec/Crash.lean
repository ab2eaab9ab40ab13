import Verif.Spec.ParallelProgram

/-!
# How far processes are, and for whom they wait
-/

namespace Schnek.Spec

open Schnek Schnek.Mpi Schnek.Buffer

variable {n : ℕ} {S : Setup n} {X T F : Type}

/-- process `c` is between the first `j` calls of the program and the next one -/
def Made [Add T] [LinearOrder F] (S : Setup n) (fresh : ℕ → List Byte) (rnd : ℚ → ℚ) (program : List (Call S X T F)) (c : Coord S) (j : ℕ)
    (C : Config (Coord S) X (Datum T F)) : Prop :=
  j ≤ program.length ∧ (C.proc c).pc = (programCode S fresh rnd (program.take j) c).length

/-- process `c` has made the first `j` calls, and maybe more -/
def Behind [Add T] [LinearOrder F] (S : Setup n) (fresh : ℕ → List Byte) (rnd : ℚ → ℚ) (program : List (Call S X T F)) (c : Coord S) (j : ℕ)
    (C : Config (Coord S) X (Datum T F)) : Prop :=
  (programCode S fresh rnd (program.take j) c).length ≤ (C.proc c).pc

/-- process `c` has begun the call number `j` (counted from 0), or is behind it -/
def Begun [Add T] [LinearOrder F] (S : Setup n) (fresh : ℕ → List Byte) (rnd : ℚ → ℚ) (program : List (Call S X T F)) (c : Coord S) (j : ℕ)
    (C : Config (Coord S) X (Datum T F)) : Prop :=
  (programCode S fresh rnd (program.take j) c).length < (C.proc c).pc

/-- `c` needs something of `a` in this call: they are neighbours, `a` sends to `c`, or all processes take part -/
def Awaits : Call S X T F → Coord S → Coord S → Prop
  | .compute _, _, _ => False
  | .exchange _, c, a => ∃ dim, c = next S a dim ∨ c = prev S a dim
  | .accumulate _, c, a => ∃ dim, c = next S a dim ∨ c = prev S a dim
  | .exchangeData dim orientation _ _, c, a => c = neighbour S dim orientation a
  | .reduceInt .., _, _ => True
  | .reduceDouble .., _, _ => True

end Schnek.Spec
