import Verif.Model.ParametersGroup
import Verif.Spec.Deck

/-!
# Specification for groups of parameters
-/

namespace Schnek.Spec

open Schnek.Deck DeckState

variable {F W : Type}

/-- The statements of `rest` are executed up to the end or to the first error; one that is accepted assigns to `v`. -/
def AssignedIn (H : Host F W) (D : DeckState F W) (rest : List (Stmt F)) (v : ℕ) : Prop :=
  ∃ pre s post, rest = pre ++ s :: post ∧ (D.run H (pre ++ [s])).1 = true ∧ Assigns (D.run H pre).2 s v

end Schnek.Spec
