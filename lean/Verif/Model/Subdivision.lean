import Verif.Model.Mpi
import Verif.Model.Field
import Verif.Model.Allocation

/-!
# Model of the remaining operations of the domain subdivisions

`src/grid/domainsubdivision.hpp`, `src/grid/domainsubdivision.t`, `src/grid/mpisubdivision.hpp`, `src/grid/mpisubdivision.t`:
initialisation of the serial subdivision, `getGlobalDomain`, `getInnerExtent`, `isBoundLo`, `isBoundHi`, the reductions, and
`exchangeData` of the serial subdivision.
-/

namespace Schnek.Subdivision

variable {n : ℕ}

/-- `DomainSubdivision::init(size, delta)`: domainsubdivision.hpp 109-114. The limits passed on to `init(low, high, delta)`. -/
def ofSize (size : Idx n) : Range n := ⟨fun _ => 0, fun i => size i - 1⟩

/-- `SerialSubdivision::init(low, high, delta)`: domainsubdivision.t 39-43. -/
def serialInit (low high : Idx n) (delta : ℤ) : Boundary n := ⟨⟨low, high⟩, delta⟩

/-- `SerialSubdivision::getGlobalDomain`: domainsubdivision.hpp 270. -/
def serialGlobalDomain (B : Boundary n) : Range n := B.size

/-- `MPICartSubdivision::getGlobalDomain`: mpisubdivision.hpp 98, mpisubdivision.t 69. -/
def mpiGlobalDomain (S : Mpi.Setup n) : Range n := ⟨S.globalLo, S.globalHi⟩

/-- `getInnerExtent(globalExtent)`: domainsubdivision.hpp 135-148, for a floating point type `T`; arithmetic is exact (no rounding).
`inner` is `getInnerDomain()`, `global` is `getGlobalDomain()`; the result is the lower and the upper corner. -/
def innerExtent {K : Type} [Field K] (inner global : Range n) (extLo extHi : Fin n → K) : (Fin n → K) × (Fin n → K) :=
  let dx i := (extHi i - extLo i) / ((global.hi i - global.lo i + 1 : ℤ) : K)
  (fun i => extLo i + (inner.lo i : K) * dx i, fun i => extLo i + ((inner.hi i + 1 : ℤ) : K) * dx i)

/-- `getInnerExtent(globalExtent)` for an array: domainsubdivision.hpp 154-159. -/
def innerExtentArray {K : Type} [Field K] (inner global : Range n) (ext : Fin n → K) : (Fin n → K) × (Fin n → K) :=
  innerExtent inner global (fun _ => 0) ext

/-- `MPICartSubdivision::isBoundLo(dim)`: mpisubdivision.hpp 166. -/
def isBoundLo (S : Mpi.Setup n) (c : Mpi.Coord S) (d : Fin n) : Bool := decide ((c d).1 = 0)

/-- `MPICartSubdivision::isBoundHi(dim)`: mpisubdivision.hpp 178. (`int` subtraction) -/
def isBoundHi (S : Mpi.Setup n) (c : Mpi.Coord S) (d : Fin n) : Bool := decide (((c d).1 : ℤ) = (S.dims d : ℤ) - 1)

/-- `MPI_Allreduce`: the values of all processes are combined in an unspecified order with an unspecified association (the
predefined operations are associative and commutative). `op a b = none` is overflow. `Reduction op vals r`: the call may return
`r`. -/
inductive Reduction {α : Type} (op : α → α → Option α) : Multiset α → α → Prop
  | one (a : α) : Reduction op {a} a
  | join {s t : Multiset α} {a b r : α} : Reduction op s a → Reduction op t b → op a b = some r → Reduction op (s + t) r

/-- `MPI_SUM` for `MPI_INT` -/
def addInt (a b : ℤ) : Option ℤ := if -2 ^ 31 ≤ a + b ∧ a + b < 2 ^ 31 then some (a + b) else none

/-- the values passed in by all processes -/
def values {S : Mpi.Setup n} {α : Type} (v : Mpi.Coord S → α) : Multiset α := Finset.univ.val.map v

/-- `sumReduce(int)`: mpisubdivision.t 467-473. -/
def SumReduce {S : Mpi.Setup n} (v : Mpi.Coord S → ℤ) (r : ℤ) : Prop := Reduction addInt (values v) r

/-- `avgReduce(int)`: mpisubdivision.t 425-429: `result/double(ComSize)`, converted to `int`. `rnd` is the rounding of the
division. -/
def AvgReduce (rnd : ℚ → ℚ) {S : Mpi.Setup n} (v : Mpi.Coord S → ℤ) (r : ℤ) : Prop :=
  ∃ s, SumReduce v s ∧ r = Mpi.toInt (rnd (s / (∏ i, S.dims i : ℕ)))

/-- `maxReduce`: mpisubdivision.t 432-443 (for `double`: the values are not NaN). -/
def MaxReduce {α : Type} [LinearOrder α] {S : Mpi.Setup n} (v : Mpi.Coord S → α) (r : α) : Prop :=
  Reduction (fun a b => some (max a b)) (values v) r

/-- `minReduce`: mpisubdivision.t 446-457. -/
def MinReduce {α : Type} [LinearOrder α] {S : Mpi.Setup n} (v : Mpi.Coord S → α) (r : α) : Prop :=
  Reduction (fun a b => some (min a b)) (values v) r

/-- `SerialSubdivision::exchangeData(dim, orientation, in, out)`: domainsubdivision.t 113-117, `out = in`, for the buffers at
the addresses `i` and `o`. The buffer type is a one-dimensional `Grid` with the instant allocation policy
(domainsubdivision.hpp 61). -/
def serialExchangeData (h : Alloc.Heap 0) (i o : ℕ) : Except Alloc.Err (Alloc.Heap 0) := Alloc.step .c false h (.assign o i)

/-- `MPICartSubdivision::exchangeData` as far as the memory is concerned: mpisubdivision.t 407, `out.resize(Index(recvSize))`. -/
def mpiExchangeDataResize (h : Alloc.Heap 0) (o : ℕ) (recvSize : ℕ) : Except Alloc.Err (Alloc.Heap 0) :=
  Alloc.step .c false h (.resize o ⟨fun _ => 0, fun _ => (recvSize : ℤ) - 1⟩ false 0)

end Schnek.Subdivision
