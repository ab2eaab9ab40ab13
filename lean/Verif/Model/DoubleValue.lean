import Verif.Lemma.Binary64

/-!
# `double` as the type of the values of a grid
-/

namespace Schnek.Binary64

/-- The finite values of type `double`, if there were no largest one: an addition that overflows is not modelled. -/
@[ext] structure Double where
  /-- the number -/
  val : ℚ
  /-- it is in the format -/
  fmt : IsFormat val

/-- `a + b` in `double`: `grid[*loIt] += grid[*hiIt]` (src/grid/domainsubdivision.t 93, 106) and `v = v + recv[arr_ind]`
(src/grid/mpisubdivision.t 295, 356) for grids of `double` -/
instance : Add Double := ⟨fun a b => ⟨rnd (a.val + b.val), Schnek.Lemma.Binary64.rnd_format _⟩⟩

end Schnek.Binary64
