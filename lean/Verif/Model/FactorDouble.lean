import Verif.Model.Factor
import Verif.Model.Binary64

/-!
# Floating point operations of `equalFactors` in `double`

`src/util/factor.cpp`
-/

namespace Schnek.Factor

/-- The operations of `distribute` (factor.cpp 136, 137, 144, 147, 161; algohelper.hpp 32-43), with rounding. For positive weights no result is too
large for a `double`: all numbers are between `2^-32` and `2^32` times the number of dimensions. -/
def doubleOps : FloatOps ℚ where
  ratio a b := Binary64.rnd ((a : ℚ) / (b : ℚ))
  scale x f := Binary64.rnd (x * (f : ℚ))
  zero := 0
  add x y := Binary64.rnd (x + y)
  lt a b := decide (a < b)

end Schnek.Factor
