import Verif.Spec.Deck

/-!
# Which blocks may lie in which
-/

namespace Schnek.Spec

open Schnek.Deck

variable {F : Type}

/-- The program has named `child` among the classes of blocks that may lie in blocks of class `parent`. -/
def Allows (classes : List (String × ClassDesc F)) (parent child : String) : Prop :=
  ∃ c, classes.lookup parent = some c ∧ child ∈ c.allowedChildren

/-- The block is of that class. -/
def OfClass (S : Storage) (b : ℕ) (className : String) : Prop := ∃ B, S.blocks[b]? = some B ∧ B.className = className

end Schnek.Spec
