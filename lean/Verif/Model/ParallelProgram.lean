import Verif.Model.MpiSchedule
import Verif.Model.Subdivision
import Verif.Model.Buffer

/-!
# Programs that call `MPICartSubdivision`

A program which is executed by all processes, and which in any order computes with its own data and calls `exchange`, `accumulate`,
`exchangeData` and the reductions of `src/grid/mpisubdivision.t`. The processes go on at their own pace, see `Model/MpiSchedule.lean`.
-/

namespace Schnek.Mpi

open Schnek Schnek.Buffer Schnek.Subdivision

variable {n : ℕ}

/-- A variable of type `A` in the data `X` of a process. -/
structure Part (X A : Type) where
  get : X → A
  set : A → X → X
  get_set : ∀ a x, get (set a x) = a
  set_get : ∀ x, set (get x) x = x
  set_set : ∀ a b x, set a (set b x) = set a x

/-- What the messages consist of: `T` is the value type of the grids, `F` is `double`, then there are `MPI_INT` and `MPI_UNSIGNED_CHAR`. -/
inductive Datum (T F : Type)
  | value (t : T)
  | double (f : F)
  | int (i : ℤ)
  | byte (b : Byte)

/-- The reductions of `int`: mpisubdivision.t 425-429, 439-443, 453-457, 468-473. -/
inductive IntReduction
  | sum
  | avg
  | max
  | min

/-- The reductions of `double`: mpisubdivision.t 432-436, 446-450. `sumReduce(double)` and `avgReduce(double)` are not modelled here: their
result depends on the order in which MPI adds. -/
inductive DoubleReduction
  | max
  | min

/-- What a program may do. `X` is the data of a process. -/
inductive Call (S : Setup n) (X T F : Type)
  /-- something without communication -/
  | compute (f : Coord S → X → X)
  /-- `subdivision.exchange(grid)` -/
  | exchange (grid : Part X (GridMap n T))
  /-- `subdivision.accumulate(grid)` -/
  | accumulate (grid : Part X (GridMap n T))
  /-- `subdivision.exchangeData(dim, orientation, in, out)` -/
  | exchangeData (dim : Fin n) (orientation : ℤ) (input output : Part X (List Byte))
  /-- `result = subdivision.xxxReduce(value)`, for `int` -/
  | reduceInt (kind : IntReduction) (value : X → ℤ) (result : Part X ℤ)
  /-- `result = subdivision.xxxReduce(value)`, for `double` -/
  | reduceDouble (kind : DoubleReduction) (value : X → F) (result : Part X F)

variable {P X G T F D : Type}

/-- The same instruction in a process with more data, of which `part` is used here, and with messages of `enc` instead of `T`. -/
def Instr.on (part : Part X G) (enc : T → D) : Instr P G T → Instr P X D
  | .compute f => .compute fun m m' => ∃ s r m₁, m.send = s.map enc ∧ m.recv = r.map enc ∧ f ⟨part.get m.grid, s, r⟩ m₁ ∧
      m' = ⟨part.set m₁.grid m.grid, m₁.send.map enc, m₁.recv.map enc⟩
  | .sendrecv dest source sc rc => .sendrecv dest source (fun x => sc (part.get x)) (fun x => rc (part.get x))
  | .allreduce op => .allreduce fun x m => ∃ y r, (∀ p, x p = (y p).map enc) ∧ op y r ∧ m = r.map enc

/-- The calls have buffers of their own, `sendarr[dim]` and `recvarr[dim]` (mpisubdivision.t 126-127, 165-166, 257-258). What they contain
before the call is never read; here they are empty. -/
def newBuffers : Instr P X D := .compute fun m m' => m' = { m with send := [], recv := [] }

/-- `exchangeData` in the process `c`: mpisubdivision.t 386-415. `out` holds `fresh k` after it has been resized to `k` bytes. The program
does not read `in` after `out` has been resized if they are one buffer; this is left to the caller (see `Spec.Ready`). The received bytes are
written to the begin of `out`. -/
def exchangeDataCode (S : Setup n) (fresh : ℕ → List Byte) (dim : Fin n) (orientation : ℤ) (input output : Part X (List Byte))
    (c : Coord S) : List (Instr (Coord S) X (Datum T F)) :=
  let sendCoord := if orientation > 0 then next S c dim else prev S c dim
  let recvCoord := if orientation > 0 then prev S c dim else next S c dim
  [.compute fun m m' => (input.get m.grid).length < 2 ^ 31 ∧ m' = { m with send := [.int (input.get m.grid).length] },
   .sendrecv sendCoord recvCoord (fun _ => 1) (fun _ => 1),
   .compute fun m m' => ∃ k : ℕ, m.recv = [.int k] ∧
     m' = { m with grid := output.set (fresh k) m.grid, send := (input.get m.grid).map .byte },
   .sendrecv sendCoord recvCoord (fun x => (input.get x).length) (fun x => (output.get x).length),
   .compute fun m m' => ∃ bytes : List Byte, m.recv = bytes.map .byte ∧
     m' = { m with grid := output.set (bytes ++ (output.get m.grid).drop bytes.length) m.grid }]

/-- what the reduction of these values may result in -/
def IntReduction.Op {S : Setup n} : IntReduction → (Coord S → ℤ) → ℤ → Prop
  | .sum => SumReduce
  | .avg => SumReduce
  | .max => MaxReduce
  | .min => MinReduce

/-- what becomes of the result -/
def IntReduction.post (S : Setup n) (rnd : ℚ → ℚ) : IntReduction → ℤ → ℤ
  | .avg => fun s => toInt (rnd (s / (∏ i, S.dims i : ℕ)))
  | _ => id

/-- what the reduction of these values may result in -/
def DoubleReduction.Op [LinearOrder F] {S : Setup n} : DoubleReduction → (Coord S → F) → F → Prop
  | .max => MaxReduce
  | .min => MinReduce

/-- The instructions of a call in the process `c`. `rnd` is the rounding of a division. -/
def Call.code [Add T] [LinearOrder F] (S : Setup n) (fresh : ℕ → List Byte) (rnd : ℚ → ℚ) (c : Coord S) :
    Call S X T F → List (Instr (Coord S) X (Datum T F))
  | .compute f => [.compute fun m m' => m' = { m with grid := f c m.grid }]
  | .exchange grid => newBuffers :: (exchangeCode S c).map (Instr.on grid .value)
  | .accumulate grid => newBuffers :: (accumulateCode S c).map (Instr.on grid .value)
  | .exchangeData dim orientation input output => exchangeDataCode S fresh dim orientation input output c
  | .reduceInt kind value result =>
    [.compute fun m m' => m' = { m with send := [.int (value m.grid)] },
     .allreduce fun x m => ∃ v r, (∀ p, x p = [.int (v p)]) ∧ kind.Op v r ∧ m = [.int r],
     .compute fun m m' => ∃ r, m.recv = [.int r] ∧ m' = { m with grid := result.set (kind.post S rnd r) m.grid }]
  | .reduceDouble kind value result =>
    [.compute fun m m' => m' = { m with send := [.double (value m.grid)] },
     .allreduce fun x m => ∃ v r, (∀ p, x p = [.double (v p)]) ∧ kind.Op v r ∧ m = [.double r],
     .compute fun m m' => ∃ r, m.recv = [.double r] ∧ m' = { m with grid := result.set r m.grid }]

/-- The instructions of a program in the process `c`. -/
def programCode [Add T] [LinearOrder F] (S : Setup n) (fresh : ℕ → List Byte) (rnd : ℚ → ℚ) (program : List (Call S X T F))
    (c : Coord S) : List (Instr (Coord S) X (Datum T F)) :=
  program.flatMap fun call => call.code S fresh rnd c

end Schnek.Mpi
