import Verif.Model.ArrayObjects

/-!
# Switching the checking policy of arrays

The same program with `ArrayNoArgCheck` instead of `ArrayAssertArgCheck`, as a `typedef` does it.
-/

namespace Schnek.Spec.ArrayObj

open Schnek.ArrayObj

variable {T : Type}

/-- the array with policy `ArrayNoArgCheck` -/
def unchecked (a : Arr T) : Arr T := ⟨false, a.data⟩

/-- the arrays with policy `ArrayNoArgCheck` -/
def uncheckedWorld (w : World T) : World T := ⟨w.arrays.map unchecked, w.out⟩

/-- the operation with policy `ArrayNoArgCheck` -/
def uncheckedOp : Op T → Op T
  | .new _ n => .new false n
  | .ofValue _ n v => .ofValue false n v
  | .ofValues _ vs => .ofValues false vs
  | .copy _ x => .copy false x
  | op => op

/-- the operation makes no array without checks -/
def allChecked : Op T → Bool
  | .new c _ | .ofValue c _ _ | .ofValues c _ | .copy c _ => c
  | _ => true

/-- what becomes of a result without the checks: a failed assertion becomes an access outside of an array, all else stays -/
def withoutChecks : Except Err (World T) → Except Err (World T)
  | .ok w => .ok (uncheckedWorld w)
  | .error .stop => .error .outside
  | .error e => .error e

/-- all elements have values -/
def hasValues (a : Arr T) : Prop := ∀ x ∈ a.data, x ≠ none

end Schnek.Spec.ArrayObj
