import Verif.Spec.Blocks
import Verif.Spec.Dependencies

/-!
# Errors while values are computed
-/

namespace Schnek.Spec

open Schnek.Deck

/-- The parameter `n` of the block `k` comes before the parameter `n'` of the block `k'`: blocks in the order of the file, the parameters
of a block in the order of their names. -/
def Earlier (k : ℕ) (n : String) (k' : ℕ) (n' : String) : Prop := k < k' ∨ (k = k' ∧ n < n')

end Schnek.Spec
