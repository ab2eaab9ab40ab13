import Verif.Model.Subdivision
import Verif.Model.Binary64

/-!
# Sums of `double` over all processes

`src/grid/mpisubdivision.t`
-/

namespace Schnek.Subdivision

variable {n : ℕ}

/-- `sumReduce(double)`: mpisubdivision.t 459-465. MPI adds in any order; a sum that is too large for a `double` is not modelled. -/
def SumReduceDouble {S : Mpi.Setup n} (v : Mpi.Coord S → ℚ) (r : ℚ) : Prop := Reduction Binary64.add (values v) r

/-- `avgReduce(double)`: mpisubdivision.t 417-422, `result/double(ComSize)` -/
def AvgReduceDouble {S : Mpi.Setup n} (v : Mpi.Coord S → ℚ) (r : ℚ) : Prop :=
  ∃ s, SumReduceDouble v s ∧ Binary64.div s ((∏ i, S.dims i : ℕ) : ℚ) = some r

end Schnek.Subdivision
