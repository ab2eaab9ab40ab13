import Verif.Model.Mpi

/-!
# Model of `MPICartSubdivision::accumulate`, `exchangeData` and the reductions

`src/grid/mpisubdivision.t` 240-473. As in `Verif.Model.Mpi` the state is that of all processes together.
-/

namespace Schnek.Mpi

variable {n : ℕ} {T : Type}

/-- one turn of the loop that adds the receive buffer to the ghost cells: `value_type &v = grid[*domIt]; v = v + recv[arr_ind];
send[arr_ind] = v;` mpisubdivision.t 294-297, 355-358. `none` is an access outside of the grid. The state is the grid and the part of the
send buffer filled so far. -/
def addCell [Add T] (s : GridMap n T × List T) (pv : Idx n × T) : Option (GridMap n T × List T) :=
  (s.1.read pv.1).bind fun v => (s.1.write pv.1 (v + pv.2)).map fun g => (g, s.2 ++ [v + pv.2])

/-- Add the receive buffer to the cells of `r` and fill the send buffer with the results: mpisubdivision.t 287-301 and 348-362.
`AddScatter r buf g g' back`: the loop ends with the grid `g'` and the first `back.length` elements of the send buffer overwritten
by `back`. Reading past the end of the receive buffer or an access outside of the grid is not an `AddScatter`; nor is a loop that
leaves a part of the send buffer as it was. -/
def AddScatter [Add T] (r : Range n) (buf : List T) (g g' : GridMap n T) (back : List T) : Prop :=
  ∃ l, r.IterLoop r.iterBegin l ∧ l.length = buf.length ∧ (l.zip buf).foldlM addCell (g, []) = some (g', back)

/-- One half of `accumulate(grid, dim)` in all processes: mpisubdivision.t 266-321 (and, with the two sides exchanged, 327-382).
The values of `src` are sent to `dest` and received from `source`; they are added to `dst`, and the sums are sent back to `source`,
received from `dest` and written to `src`. The remarks about `Half` apply to both calls of `MPI_Sendrecv`. -/
def AccHalf [Add T] (S : Setup n) (dim : Fin n) (src dst : Coord S → Range n) (dest source : Coord S → Coord S)
    (W W' : World S T) : Prop :=
  ∃ (bufs back : Coord S → List T) (size : Coord S → ℤ) (W₁ : World S T),
    (∀ c, exchSize (bounds S c) dim = some (size c)) ∧
    (∀ c, Gather (src c) (W c) (size c) (bufs c)) ∧
    (∀ c, dest (source c) = c ∧ size (source c) = size c) ∧
    (∀ c, AddScatter (dst c) (bufs (source c)) (W c) (W₁ c) (back c)) ∧
    (∀ c, source (dest c) = c ∧ size (dest c) = size c) ∧
    (∀ c, Scatter (src c) (back (dest c)) (W₁ c) (W' c))

/-- `MPICartSubdivision::accumulate(grid, dim)` in all processes: mpisubdivision.t 240-383. -/
def AccumulateDim [Add T] (S : Setup n) (dim : Fin n) (W W' : World S T) : Prop :=
  ∃ W₁ : World S T,
    AccHalf S dim (fun c => (bounds S c).ghostSourceDomain dim .max) (fun c => (bounds S c).ghostDomain dim .min)
      (fun c => next S c dim) (fun c => prev S c dim) W W₁ ∧
    AccHalf S dim (fun c => (bounds S c).ghostSourceDomain dim .min) (fun c => (bounds S c).ghostDomain dim .max)
      (fun c => prev S c dim) (fun c => next S c dim) W₁ W'

/-- `DomainSubdivision::accumulate(grid)` in all processes: src/grid/domainsubdivision.hpp 232-234. -/
def Accumulate [Add T] (S : Setup n) : World S T → World S T → Prop := OverDims (AccumulateDim S) (List.finRange n)

end Schnek.Mpi
