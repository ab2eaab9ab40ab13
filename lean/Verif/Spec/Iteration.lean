import Verif.Model.Iteration

/-!
# Which locations a call uses
-/

namespace Schnek.Spec

open Schnek

variable {n : ℕ} {L V : Type}

/-- the call may write to `l` -/
inductive Writes (l : L) : Thread L V → Prop
  | here {v next} : Writes l (.write l v next)
  | write {l' v next} : Writes l next → Writes l (.write l' v next)
  | read {l' next} (v) : Writes l (next v) → Writes l (.read l' next)

/-- the call may read `l` or write to it -/
inductive Touches (l : L) : Thread L V → Prop
  | hereW {v next} : Touches l (.write l v next)
  | hereR {next} : Touches l (.read l next)
  | write {l' v next} : Touches l next → Touches l (.write l' v next)
  | read {l' next} (v) : Touches l (next v) → Touches l (.read l' next)

/-- no call writes to a location that a call for another index uses -/
def RaceFree (r : Range n) (func : Idx n → Thread L V) : Prop :=
  ∀ p q l, (∀ i, r.lo i ≤ p i ∧ p i ≤ r.hi i) → (∀ i, r.lo i ≤ q i ∧ q i ≤ r.hi i) → p ≠ q → Writes l (func p) → ¬ Touches l (func q)

end Schnek.Spec
