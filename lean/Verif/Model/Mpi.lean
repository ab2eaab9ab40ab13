import Verif.Model.Exchange
import Mathlib.Data.Rat.Floor
import Mathlib.Order.Monotone.Defs

/-!
# Model of `schnek::MPICartSubdivision`

`src/grid/mpisubdivision.t`. All processes of the communicator are modelled as one state. MPI is modelled by the documented effect
of the calls used: `MPI_Cart_coords` numbers the processes by their Cartesian coordinates, `MPI_Cart_shift` with displacement 1 in
a periodic dimension yields the neighbours modulo the number of processes, `MPI_Sendrecv` called by all processes delivers each
send buffer to the neighbour.
-/

namespace Schnek.Mpi

variable {n : ℕ}

/-- conversion of a `double` to `int`: truncation towards zero -/
def toInt (x : ℚ) : ℤ := if 0 ≤ x then ⌊x⌋ else ⌈x⌉

/-- `int(width*c)` with `width = (High-1.)/double(dims)`: mpisubdivision.t 107-115. `rnd` is the rounding after each floating point
operation; `High-1.` and the conversions from `int` are exact. -/
def cutOf (rnd : ℚ → ℚ) (high : ℤ) (dims c : ℕ) : ℤ := toInt (rnd (rnd ((high - 1) / dims) * c))

/-- What is used about rounding to `double` (in any of the rounding modes): it is monotone, does not change integers up to `2^53`,
and has a relative error of at most `2^-52` (numbers from `2^-40` to `2^40` are neither denormalised nor too large). -/
structure Rounding (rnd : ℚ → ℚ) : Prop where
  mono : Monotone rnd
  int : ∀ k : ℤ, |k| ≤ 2 ^ 53 → rnd k = k
  rel : ∀ x, 1 / 2 ^ 40 ≤ x → x ≤ 2 ^ 40 → |rnd x - x| ≤ x / 2 ^ 52

/-- What is the same in all processes after `init(lo, hi, delta)`. -/
structure Setup (n : ℕ) where
  /-- `globalDomain` lower corner, mpisubdivision.t 69 -/
  globalLo : Idx n
  /-- `globalDomain` upper corner, mpisubdivision.t 69 -/
  globalHi : Idx n
  /-- `dims`: the number of processes in each dimension, mpisubdivision.t 85-87 (C20) -/
  dims : Fin n → ℕ
  /-- `cut i c` is `int(width[i]*c)` with `width[i] = (High[i]-1.)/double(dims[i])`, mpisubdivision.t 107-115. It is the same in all
  processes; see `cutOf` for its value. -/
  cut : Fin n → ℕ → ℤ
  /-- `delta` -/
  delta : ℤ

/-- `mycoord`: coordinates of a process, mpisubdivision.t 94 -/
abbrev Coord (S : Setup n) := (i : Fin n) → Fin (S.dims i)

/-- `Low[i]` of the process at coordinate `c`: mpisubdivision.t 109-112. -/
def localLow (S : Setup n) (c : Coord S) (i : Fin n) : ℤ :=
  if (c i).1 > 0 then S.cut i (c i).1 - S.delta + 1 else -S.delta

/-- `High[i]`: mpisubdivision.t 114-117. (In C++ `mycoord < dims-1` is a comparison of `int`.) -/
def localHigh (S : Setup n) (c : Coord S) (i : Fin n) : ℤ :=
  if (c i).1 + 1 < S.dims i then S.cut i ((c i).1 + 1) + S.delta else S.globalHi i + S.delta

/-- `bounds`: mpisubdivision.t 135. -/
def bounds (S : Setup n) (c : Coord S) : Boundary n := ⟨⟨localLow S c, localHigh S c⟩, S.delta⟩

/-- `int` multiplication; `none` is signed overflow (undefined behaviour) -/
def mulInt (a b : ℤ) : Option ℤ := if -2 ^ 31 ≤ a * b ∧ a * b < 2 ^ 31 then some (a * b) else none

/-- `exchangeSizeProduct` after the loop: mpisubdivision.t 98, 119. -/
def exchangeSizeProduct (B : Boundary n) : Option ℤ :=
  (List.finRange n).foldlM (fun s i => mulInt s (B.size.hi i - B.size.lo i + 1)) B.delta

/-- `exchSize[i]`: mpisubdivision.t 124; `none` if the product overflowed or the divisor is 0. -/
def exchSize (B : Boundary n) (i : Fin n) : Option ℤ :=
  (exchangeSizeProduct B).bind fun s =>
    if B.size.hi i - B.size.lo i + 1 = 0 then none else some (s.tdiv (B.size.hi i - B.size.lo i + 1))

/-- `nextcoord[dim]` from `MPI_Cart_shift(comm,dim,1,&prev,&next)` with periodic boundaries: mpisubdivision.t 104. -/
def next (S : Setup n) (c : Coord S) (d : Fin n) : Coord S :=
  Function.update c d ⟨((c d).1 + 1) % S.dims d, Nat.mod_lt _ (Nat.lt_of_le_of_lt (Nat.zero_le _) (c d).2)⟩

/-- `prevcoord[dim]`: mpisubdivision.t 104. -/
def prev (S : Setup n) (c : Coord S) (d : Fin n) : Coord S :=
  Function.update c d ⟨((c d).1 + S.dims d - 1) % S.dims d,
    Nat.mod_lt _ (Nat.lt_of_le_of_lt (Nat.zero_le _) (c d).2)⟩

/-- the grids of all processes -/
abbrev World (S : Setup n) (T : Type) := Coord S → GridMap n T

variable {T : Type}

/-- Fill the send buffer from the cells of `r`: mpisubdivision.t 172-186 and the like. `Gather r g size buf`: the loop ends with the
buffer `buf` of exactly `size` elements. A longer list would be a write past the end of the buffer, a shorter one is reported by
the program as an error; neither is a `Gather`. Nor is an access outside of the grid. -/
def Gather (r : Range n) (g : GridMap n T) (size : ℤ) (buf : List T) : Prop :=
  ∃ l, r.IterLoop r.iterBegin l ∧ l.mapM g.read = some buf ∧ (buf.length : ℤ) = size

/-- Copy the receive buffer into the cells of `r`: mpisubdivision.t 191-202. Reading past the end of the buffer
or writing outside of the grid is not a `Scatter`. -/
def Scatter (r : Range n) (buf : List T) (g g' : GridMap n T) : Prop :=
  ∃ l, r.IterLoop r.iterBegin l ∧ l.length ≤ buf.length ∧
    (l.zip buf).foldlM (fun g (pv : Idx n × T) => g.write pv.1 pv.2) g = some g'

/-- One half of `exchange(grid, dim)` in all processes: fill the send buffer from `src`, `MPI_Sendrecv`, write the received values
to `dst`. `source c` is the process from which `c` receives, `dest c` the one to which it sends. If `c` waits for a message from a
process that sends elsewhere, the program hangs; if send and receive count (`exchSize[dim]`) differ, the call fails. Neither is
a `Half`. -/
def Half (S : Setup n) (dim : Fin n) (src dst : Coord S → Range n) (dest source : Coord S → Coord S)
    (W W' : World S T) : Prop :=
  ∃ (bufs : Coord S → List T) (size : Coord S → ℤ),
    (∀ c, exchSize (bounds S c) dim = some (size c)) ∧
    (∀ c, Gather (src c) (W c) (size c) (bufs c)) ∧
    (∀ c, dest (source c) = c ∧ size (source c) = size c) ∧
    (∀ c, Scatter (dst c) (bufs (source c)) (W c) (W' c))

/-- `MPICartSubdivision::exchange(grid, dim)` in all processes: mpisubdivision.t 153-237. First half: `hiSource` is sent to
`nextcoord`, `loGhost` is received from `prevcoord`; second half: `loSource` is sent to `prevcoord`, `hiGhost` is received from
`nextcoord`. -/
def ExchangeDim (S : Setup n) (dim : Fin n) (W W' : World S T) : Prop :=
  ∃ W₁ : World S T,
    Half S dim (fun c => (bounds S c).ghostSourceDomain dim .max) (fun c => (bounds S c).ghostDomain dim .min)
      (fun c => next S c dim) (fun c => prev S c dim) W W₁ ∧
    Half S dim (fun c => (bounds S c).ghostSourceDomain dim .min) (fun c => (bounds S c).ghostDomain dim .max)
      (fun c => prev S c dim) (fun c => next S c dim) W₁ W'

/-- `for (size_t i=0; i<Rank; ++i) step(grid, i)` -/
def OverDims {S : Setup n} (step : Fin n → World S T → World S T → Prop) :
    List (Fin n) → World S T → World S T → Prop
  | [], W, W' => W' = W
  | d :: ds, W, W' => ∃ W₁, step d W W₁ ∧ OverDims step ds W₁ W'

/-- `DomainSubdivision::exchange(grid)` in all processes: src/grid/domainsubdivision.hpp 228-230. -/
def Exchange (S : Setup n) : World S T → World S T → Prop := OverDims (ExchangeDim S) (List.finRange n)

/-- `getUniqueId()`: mpisubdivision.t 477-484. -/
def uniqueId (S : Setup (n + 1)) (c : Coord S) : ℕ :=
  (List.finRange n).foldl (fun id i => S.dims i.succ * id + (c i.succ).1) (c 0).1

end Schnek.Mpi
