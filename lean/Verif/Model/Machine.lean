import Verif.Model.Storage
import Verif.Model.Field
import Verif.Model.RangeOps
import Verif.Model.MpiAccumulate

/-!
# Index arithmetic with the numbers of the machine

In the other files `int` is ℤ. Here the same functions are written down with `int` of 32 bits and `ptrdiff_t` of 64 bits: `none` is signed
overflow, which is undefined behaviour. Arithmetic with `size_t` is modulo 2^64 here and there.
-/

namespace Schnek.Machine

variable {n : ℕ}

/-- result of an `int` operation -/
def int (x : ℤ) : Option ℤ := if -2 ^ 31 ≤ x ∧ x < 2 ^ 31 then some x else none

/-- result of a `ptrdiff_t` operation -/
def long (x : ℤ) : Option ℤ := if -2 ^ 63 ≤ x ∧ x < 2 ^ 63 then some x else none

/-- conversion of a `size_t` to `int`: modulo 2^32 -/
def toInt (x : Word) : ℤ := (x.val : ℤ).bmod (2 ^ 32)

/-- a loop that computes the components of an array, each from other data -/
def collect {α : Type} (f : Fin n → Option α) : Option (Fin n → α) :=
  if h : ∀ i, (f i).isSome then some fun i => (f i).get (h i) else none

/-! ## storage -/

/-- `dims[d] = hi[d] - lo[d] + 1`: src/grid/gridstorage/single-array-allocation.hpp 326, 365 -/
def dims (r : Range n) : Option (Idx n) := collect fun d => (int (r.hi d - r.lo d)).bind fun x => int (x + 1)

/-- C order: `updateDataFast` with `ptrdiff_t p`: src/grid/gridstorage/single-array-storage-base.hpp 388-397 -/
def fastC (d lo : Idx (n + 1)) : Option ℤ :=
  (int (-(lo 0))).bind fun p => (List.finRange n).foldlM (fun p i => (long (p * d i.succ)).bind fun q => long (q - lo i.succ)) p

/-- Fortran order: `updateDataFast` with `size_t p`, after the `int` negation `-this->getLo(rank - 1)`:
src/grid/gridstorage/single-array-storage-base.hpp 482-491 -/
def fastF (d lo : Idx (n + 1)) : Option Word :=
  (int (-(lo (Fin.last n)))).map fun (p : ℤ) =>
    (List.finRange n).reverse.foldl (fun (p : Word) i => p * (d i.castSucc : Word) - (lo i.castSucc : Word)) (p : Word)

/-- the number of the element accessed by `get(index)`, after a resize to range `r`:
src/grid/gridstorage/single-array-storage-base.hpp 336-355, 437-456. (`int` values are converted to `size_t`; the addition of `data_fast` and
`pos` is modulo 2^64.) -/
def slot (o : Order) (r : Range (n + 1)) (index : Idx (n + 1)) : Option ℕ :=
  (dims r).bind fun d => match o with
    | .c => (fastC d r.lo).map fun (p : ℤ) => ((p : Word) + Storage.posC d index).val
    | .fortran => (fastF d r.lo).map fun p => (p + Storage.posF d index).val

/-- `getSize()`: src/grid/gridstorage/single-array-storage-base.hpp 89 -/
def getSize (r : Range n) : ℤ := toInt (Storage.size r)

/-! ## iteration -/

/-- `Range::iterator::increment`: src/grid/range.hpp 303-318 -/
def incLoop (r : Range n) : (d : ℕ) → d ≤ n → Idx n → Option (Idx n × Bool)
  | 0, _, pos => some (pos, true)
  | d + 1, h, pos =>
    let i : Fin n := ⟨d, h⟩
    (int (pos i + 1)).bind fun x =>
      let pos1 := Function.update pos i x
      if pos1 i > r.hi i then incLoop r d (Nat.le_of_succ_le h) (Function.update pos1 i (r.lo i)) else some (pos1, false)

/-- `operator++`: src/grid/range.hpp 303-327 -/
def increment (r : Range n) (it : RangeIter n) : Option (RangeIter n) :=
  (incLoop r n le_rfl it.pos).map fun res => ⟨res.1, it.atEnd || res.2⟩

/-- A user loop over all positions, as `Range.IterLoop`; `none`: overflow in an increment. -/
inductive IterLoop (r : Range n) : RangeIter n → Option (List (Idx n)) → Prop
  | done {it} : it = r.iterEnd → IterLoop r it (some [])
  | overflow {it} : it ≠ r.iterEnd → increment r it = none → IterLoop r it none
  | step {it it' out} : it ≠ r.iterEnd → increment r it = some it' → IterLoop r it' out → IterLoop r it (out.map (it.pos :: ·))

/-- The C++ loop `for (x=lo; x<=hi; ++x) body(x)`: after each round `x` is incremented. -/
def loopLE {σ : Type} (lo hi : ℤ) (body : ℤ → σ → Option σ) (s : σ) : Option σ :=
  go (hi + 1 - lo).toNat lo s
where
  /-- `k` remaining rounds, the loop variable is `x` -/
  go : ℕ → ℤ → σ → Option σ
    | 0, _, s => some s
    | k + 1, x, s => (body x s).bind fun s' => (int (x + 1)).bind fun x' => go k x' s'

variable {σ : Type}

/-- `RangeCIterationPolicyImpl::forEach`: src/grid/iteration/range-iteration.hpp 92-130 -/
def forEachCImpl (r : Range n) (f : Idx n → σ → σ) : (dim : ℕ) → dim ≤ n → Idx n × σ → Option (Idx n × σ)
  | 0, _, (pos, s) => some (pos, f pos s)
  | dim + 1, h, st =>
    let idim : Fin n := ⟨n - (dim + 1), by omega⟩
    loopLE (r.lo idim) (r.hi idim)
      (fun x (st : Idx n × σ) => forEachCImpl r f dim (Nat.le_of_succ_le h) (Function.update st.1 idim x, st.2)) st

/-- `RangeCIterationPolicy::forEach`: src/grid/iteration/range-iteration.hpp 138-142 -/
def forEachC (r : Range n) (f : Idx n → σ → σ) (s : σ) : Option σ := (forEachCImpl r f n le_rfl (r.lo, s)).map Prod.snd

/-- `RangeFortranIterationPolicyImpl::forEach`: src/grid/iteration/range-iteration.hpp 153-191 -/
def forEachFImpl (r : Range n) (f : Idx n → σ → σ) : (rank : ℕ) → rank ≤ n → Idx n × σ → Option (Idx n × σ)
  | 0, _, (pos, s) => some (pos, f pos s)
  | rank + 1, h, st =>
    let dim : Fin n := ⟨rank, h⟩
    loopLE (r.lo dim) (r.hi dim)
      (fun x (st : Idx n × σ) => forEachFImpl r f rank (Nat.le_of_succ_le h) (Function.update st.1 dim x, st.2)) st

/-- `RangeFortranIterationPolicy::forEach`: src/grid/iteration/range-iteration.hpp 200-204 -/
def forEachF (r : Range n) (f : Idx n → σ → σ) (s : σ) : Option σ := (forEachFImpl r f n le_rfl (r.lo, s)).map Prod.snd

/-! ## ranges, boundaries, fields -/

/-- `Range::grow(s)`: src/grid/range.hpp 113-120, for a number `s` -/
def grow (r : Range n) (s : ℤ) : Option (Range n) :=
  (collect fun i => int (r.lo i - s)).bind fun lo => (collect fun i => int (r.hi i + s)).map fun hi => ⟨lo, hi⟩

/-- `getGhostDomain(dim, b)`: src/grid/boundary.t 57-73 -/
def ghostDomain (B : Boundary n) (dim : Fin n) : Bound → Option (Range n)
  | .min => (int (B.size.lo dim + B.delta)).bind fun x => (int (x - 1)).map fun y => ⟨B.size.lo, Function.update B.size.hi dim y⟩
  | .max => (int (B.size.hi dim - B.delta)).bind fun x => (int (x + 1)).map fun y => ⟨Function.update B.size.lo dim y, B.size.hi⟩

/-- `getGhostSourceDomain(dim, b)`: src/grid/boundary.t 80-98 -/
def ghostSourceDomain (B : Boundary n) (dim : Fin n) : Bound → Option (Range n)
  | .min => (int (B.size.lo dim + B.delta)).bind fun x => (int (x + B.delta)).bind fun y => (int (y - 1)).map fun z =>
      ⟨Function.update B.size.lo dim x, Function.update B.size.hi dim z⟩
  | .max => (int (B.size.hi dim - B.delta)).bind fun x => (int (x - B.delta)).bind fun y => (int (y + 1)).map fun z =>
      ⟨Function.update B.size.lo dim z, Function.update B.size.hi dim x⟩

/-- `getBoundaryDomain(dim, b, stagger)`: src/grid/boundary.t 106-120 -/
def boundaryDomain (B : Boundary n) (dim : Fin n) (b : Bound) (stagger : Bool) : Option (Range n) :=
  match b with
  | .min => (int (B.size.lo dim + B.delta)).bind fun x => (int (x - 1)).bind fun y => (int (y - if stagger then 1 else 0)).map fun z =>
      ⟨B.size.lo, Function.update B.size.hi dim z⟩
  | .max => (int (B.size.hi dim - B.delta)).bind fun x => (int (x + 1)).map fun y => ⟨Function.update B.size.lo dim y, B.size.hi⟩

/-- `getInnerDomain()`: src/grid/boundary.t 127-137 -/
def innerDomain (B : Boundary n) : Option (Range n) :=
  (collect fun d => int (B.size.lo d + B.delta)).bind fun lo => (collect fun d => int (B.size.hi d - B.delta)).map fun hi => ⟨lo, hi⟩

/-- the range of `Field(low, high, domain, stagger, ghostCells)`, `Field(range, ...)` and of the corresponding calls of `resize`:
src/grid/field.t 79-99, 111-130, 206-226, 239-257 -/
def fieldRange (low high : Idx n) (ghost : ℤ) : Option (Range n) :=
  (collect fun i => int (low i - ghost)).bind fun lo => (collect fun i => int (high i + ghost)).map fun hi => ⟨lo, hi⟩

/-- the range of `Field(size, domain, stagger, ghostCells)` and of `resize(size, ...)`: src/grid/field.t 49-67, 174-193 -/
def fieldRangeOfSize (size : Idx n) (ghost : ℤ) : Option (Range n) :=
  (int (0 - ghost)).bind fun lo => (int (ghost - 1)).bind fun g => (collect fun i => int (size i + g)).map fun hi => ⟨fun _ => lo, hi⟩

/-- `positionToIndex(dim, pos)`: src/grid/field.t 266-273. The conversion of a `double` that does not fit to `int` is undefined, too. -/
def positionToIndex {K : Type} [Field K] [LinearOrder K] [IsStrictOrderedRing K] [FloorRing K] (f : FieldShape K n) (d : Fin n) (pos : K) :
    Option ℤ :=
  (int (f.range.hi d - f.range.lo d)).bind fun x => (int (2 * f.ghost)).bind fun g => (int (x - g)).bind fun y => (int (y + 1)).bind fun width =>
    int ⌊(pos - f.domLo d) * (width : K) / (f.domHi d - f.domLo d) - (1 / 2) * (FieldShape.stag (f.stagger d) : K) + (f.ghost : K) +
      (f.range.lo d : K)⌋

/-- `indexToPosition(dim, index)`: src/grid/field.t 281-301 -/
def indexToPosition {K : Type} [Field K] (f : FieldShape K n) (d : Fin n) (index : ℤ) : Option K :=
  (int (index - f.range.lo d)).bind fun i => (int (f.range.hi d - f.range.lo d)).bind fun x => (int (2 * f.ghost)).bind fun g =>
    (int (x - g)).bind fun y => (int (y + 1)).map fun width =>
      (f.domHi d - f.domLo d) * ((i : K) + (1 / 2) * (FieldShape.stag (f.stagger d) : K) - (f.ghost : K)) / (width : K) + f.domLo d

/-! ## ghost cell exchange -/

/-- two iterators, as `Schnek.ParLoop`: src/grid/domainsubdivision.t 54-62, 66-75, 87-96, 100-109 -/
inductive ParLoop (r₁ r₂ : Range n) (body : Idx n → Idx n → σ → Option σ) : RangeIter n → RangeIter n → σ → Option σ → Prop
  | done {it₁ it₂ s} : it₁ = r₁.iterEnd → ParLoop r₁ r₂ body it₁ it₂ s (some s)
  | fault {it₁ it₂ s} : it₁ ≠ r₁.iterEnd → body it₁.pos it₂.pos s = none → ParLoop r₁ r₂ body it₁ it₂ s none
  | overflow {it₁ it₂ s s'} : it₁ ≠ r₁.iterEnd → body it₁.pos it₂.pos s = some s' → increment r₁ it₁ = none ∨ increment r₂ it₂ = none →
      ParLoop r₁ r₂ body it₁ it₂ s none
  | step {it₁ it₂ it₁' it₂' s s' out} : it₁ ≠ r₁.iterEnd → body it₁.pos it₂.pos s = some s' → increment r₁ it₁ = some it₁' →
      increment r₂ it₂ = some it₂' → ParLoop r₁ r₂ body it₁' it₂' s' out → ParLoop r₁ r₂ body it₁ it₂ s out

variable {T : Type}

/-- `SerialSubdivision::exchange(grid, dim)` and `accumulate(grid, dim)`: src/grid/domainsubdivision.t 46-76, 79-111, where `cell a b` is done
for the cells `a` of the lower and `b` of the upper range in the first loop, and for `b`, `a` in the second loop -/
def SerialDim (cell : Idx n → Idx n → GridMap n T → Option (GridMap n T)) (B : Boundary n) (dim : Fin n) (g : GridMap n T)
    (out : Option (GridMap n T)) : Prop :=
  match ghostDomain B dim .min, ghostDomain B dim .max, ghostSourceDomain B dim .min, ghostSourceDomain B dim .max with
  | some loGhost, some hiGhost, some loSource, some hiSource =>
    ∃ mid, ParLoop loGhost hiSource (fun a b => cell a b) loGhost.iterBegin hiSource.iterBegin g mid ∧
      match mid with
      | none => out = none
      | some g₁ => ParLoop loSource hiGhost (fun a b => cell b a) loSource.iterBegin hiGhost.iterBegin g₁ out
  | _, _, _, _ => out = none

/-- `exchange(grid)` of the serial subdivision: src/grid/domainsubdivision.hpp 228-230 -/
def SerialExchange (B : Boundary n) : GridMap n T → Option (GridMap n T) → Prop :=
  Serial.OverDims (SerialDim Serial.copyCell B) (List.finRange n)

/-- `accumulate(grid)` of the serial subdivision: src/grid/domainsubdivision.hpp 232-234 -/
def SerialAccumulate [Add T] (B : Boundary n) : GridMap n T → Option (GridMap n T) → Prop :=
  Serial.OverDims (SerialDim Serial.addCell B) (List.finRange n)

/-! ## division into processes -/

/-- `Low[i]`: src/grid/mpisubdivision.t 109-112; `int(width[i]*mycoord[i])` is `cut`, a conversion of a `double` to `int` -/
def localLow (S : Mpi.Setup n) (c : Mpi.Coord S) (i : Fin n) : Option ℤ :=
  if (c i).1 > 0 then (int (S.cut i (c i).1)).bind fun x => (int (x - S.delta)).bind fun y => int (y + 1) else int (-S.delta)

/-- `High[i]`: src/grid/mpisubdivision.t 114-117 -/
def localHigh (S : Mpi.Setup n) (c : Mpi.Coord S) (i : Fin n) : Option ℤ :=
  (int (S.dims i - 1)).bind fun last =>
    if ((c i).1 : ℤ) < last then (int ((c i).1 + 1)).bind fun k => (int (S.cut i k.toNat)).bind fun x => int (x + S.delta)
    else int (S.globalHi i + S.delta)

/-- `bounds` after `init`: src/grid/mpisubdivision.t 74-135. `box[i] = High[i]-Low[i]` (line 79) and `High[i]-Low[i]+1` (lines 119, 124) must
not overflow either. The product that is the size of the buffers is modelled with overflow in `Mpi.exchSize`. -/
def mpiBounds (S : Mpi.Setup n) (c : Mpi.Coord S) : Option (Boundary n) :=
  (collect fun i => int (S.globalHi i - S.globalLo i)).bind fun _ =>
    (collect (localLow S c)).bind fun lo => (collect (localHigh S c)).bind fun hi => (dims ⟨lo, hi⟩).map fun _ => ⟨⟨lo, hi⟩, S.delta⟩

/-- filling the send buffer: src/grid/mpisubdivision.t 172-186 and the like -/
def Gather (r : Range n) (g : GridMap n T) (size : ℤ) (buf : List T) : Prop :=
  ∃ l, IterLoop r r.iterBegin (some l) ∧ l.mapM g.read = some buf ∧ (buf.length : ℤ) = size

/-- copying the receive buffer: src/grid/mpisubdivision.t 191-202 and the like -/
def Scatter (r : Range n) (buf : List T) (g g' : GridMap n T) : Prop :=
  ∃ l, IterLoop r r.iterBegin (some l) ∧ l.length ≤ buf.length ∧ (l.zip buf).foldlM (fun g (pv : Idx n × T) => g.write pv.1 pv.2) g = some g'

/-- One half of `exchange(grid, dim)` in all processes, as `Mpi.Half`; the local domain, the sources and the ghost cells are computed with
`int`. -/
def Half (S : Mpi.Setup n) (dim : Fin n) (src dst : Boundary n → Option (Range n)) (dest source : Mpi.Coord S → Mpi.Coord S)
    (W W' : Mpi.World S T) : Prop :=
  ∃ (bufs : Mpi.Coord S → List T) (size : Mpi.Coord S → ℤ) (B : Mpi.Coord S → Boundary n) (s d : Mpi.Coord S → Range n),
    (∀ c, mpiBounds S c = some (B c) ∧ src (B c) = some (s c) ∧ dst (B c) = some (d c)) ∧
    (∀ c, Mpi.exchSize (B c) dim = some (size c)) ∧
    (∀ c, Gather (s c) (W c) (size c) (bufs c)) ∧
    (∀ c, dest (source c) = c ∧ size (source c) = size c) ∧
    (∀ c, Scatter (d c) (bufs (source c)) (W c) (W' c))

/-- `MPICartSubdivision::exchange(grid, dim)` in all processes: src/grid/mpisubdivision.t 153-237 -/
def MpiExchangeDim (S : Mpi.Setup n) (dim : Fin n) (W W' : Mpi.World S T) : Prop :=
  ∃ W₁ : Mpi.World S T,
    Half S dim (fun B => ghostSourceDomain B dim .max) (fun B => ghostDomain B dim .min) (fun c => Mpi.next S c dim) (fun c => Mpi.prev S c dim) W W₁ ∧
    Half S dim (fun B => ghostSourceDomain B dim .min) (fun B => ghostDomain B dim .max) (fun c => Mpi.prev S c dim) (fun c => Mpi.next S c dim) W₁ W'

/-- `DomainSubdivision::exchange(grid)` in all processes: src/grid/domainsubdivision.hpp 228-230 -/
def MpiExchange (S : Mpi.Setup n) : Mpi.World S T → Mpi.World S T → Prop := Mpi.OverDims (MpiExchangeDim S) (List.finRange n)

/-- adding the receive buffer, as `Mpi.AddScatter`: src/grid/mpisubdivision.t 287-301, 348-362 -/
def AddScatter [Add T] (r : Range n) (buf : List T) (g g' : GridMap n T) (back : List T) : Prop :=
  ∃ l, IterLoop r r.iterBegin (some l) ∧ l.length = buf.length ∧ (l.zip buf).foldlM Mpi.addCell (g, []) = some (g', back)

/-- one half of `accumulate(grid, dim)` in all processes, as `Mpi.AccHalf`: src/grid/mpisubdivision.t 266-321, 327-382 -/
def AccHalf [Add T] (S : Mpi.Setup n) (dim : Fin n) (src dst : Boundary n → Option (Range n)) (dest source : Mpi.Coord S → Mpi.Coord S)
    (W W' : Mpi.World S T) : Prop :=
  ∃ (bufs back : Mpi.Coord S → List T) (size : Mpi.Coord S → ℤ) (W₁ : Mpi.World S T) (B : Mpi.Coord S → Boundary n)
      (s d : Mpi.Coord S → Range n),
    (∀ c, mpiBounds S c = some (B c) ∧ src (B c) = some (s c) ∧ dst (B c) = some (d c)) ∧
    (∀ c, Mpi.exchSize (B c) dim = some (size c)) ∧
    (∀ c, Gather (s c) (W c) (size c) (bufs c)) ∧
    (∀ c, dest (source c) = c ∧ size (source c) = size c) ∧
    (∀ c, AddScatter (d c) (bufs (source c)) (W c) (W₁ c) (back c)) ∧
    (∀ c, source (dest c) = c ∧ size (dest c) = size c) ∧
    (∀ c, Scatter (s c) (back (dest c)) (W₁ c) (W' c))

/-- `MPICartSubdivision::accumulate(grid, dim)` in all processes: src/grid/mpisubdivision.t 240-383 -/
def MpiAccumulateDim [Add T] (S : Mpi.Setup n) (dim : Fin n) (W W' : Mpi.World S T) : Prop :=
  ∃ W₁ : Mpi.World S T,
    AccHalf S dim (fun B => ghostSourceDomain B dim .max) (fun B => ghostDomain B dim .min) (fun c => Mpi.next S c dim)
      (fun c => Mpi.prev S c dim) W W₁ ∧
    AccHalf S dim (fun B => ghostSourceDomain B dim .min) (fun B => ghostDomain B dim .max) (fun c => Mpi.prev S c dim)
      (fun c => Mpi.next S c dim) W₁ W'

/-- `DomainSubdivision::accumulate(grid)` in all processes: src/grid/domainsubdivision.hpp 232-234 -/
def MpiAccumulate [Add T] (S : Mpi.Setup n) : Mpi.World S T → Mpi.World S T → Prop :=
  Mpi.OverDims (MpiAccumulateDim S) (List.finRange n)

end Schnek.Machine
