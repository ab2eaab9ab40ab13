import Verif.Model.HdfAttributes

/-!
# Attributes of datasets, in terms of the calls a program has made
-/

namespace Schnek.Spec

open Schnek.Hdf

variable {V Ty : Type}

/-- After these calls, there is a variable at this address, and `v` is the value assigned to it last. -/
def HasValue (calls : List (AttrCall V Ty)) (address : ℕ) (v : V) : Prop :=
  ∃ before later, calls = before ++ .store address v :: later ∧ .destroy address ∉ later ∧ ∀ v', .store address v' ∉ later

/-- The last call of `set` for this name of this object was for `dims` values of the type `type` at this address. -/
def SetLast (calls : List (AttrCall V Ty)) (object : ℕ) (name : String) (type : Ty) (address dims : ℕ) : Prop :=
  ∃ before later, calls = before ++ .set object name type address dims :: later ∧
    ∀ type' address' dims', .set object name type' address' dims' ∉ later

/-- None of these calls changes the attributes the stream refers to. -/
def Undisturbed (s : ℕ) (calls : List (AttrCall V Ty)) : Prop :=
  .stream s ∉ calls ∧ (∀ s', .copy s s' ∉ calls) ∧ ∀ o, .setAttributes s o ∉ calls

/-- The stream refers to this object: it was given to it last, or to the stream it is a copy of. -/
inductive UsesAttributes : List (AttrCall V Ty) → ℕ → ℕ → Prop
  | given {before later s object} : Undisturbed s later → UsesAttributes (before ++ .setAttributes s object :: later) s object
  | copied {before later s s' object} : UsesAttributes before s' object → Undisturbed s later →
      UsesAttributes (before ++ .copy s s' :: later) s object

end Schnek.Spec
