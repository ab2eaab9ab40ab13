import Verif.Model.Boundary

/-!
# Model of `schnek::SerialSubdivision`: ghost cell exchange and accumulation

`src/grid/domainsubdivision.t`, `src/grid/domainsubdivision.hpp`.
-/

namespace Schnek

/-- A grid as user code sees it: the range of valid indices and the contents. That the real storage behaves like this
is C07 (Props/Storage). Simplification: the unchecked access `grid[p]` outside of the range, undefined behaviour in
C++, is an explicit failure (`none`). -/
structure GridMap (n : ℕ) (T : Type) where
  /-- the index range of the grid, `getLo()`, `getHi()` -/
  range : Range n
  /-- the contents -/
  cell : Idx n → T

namespace GridMap

variable {n : ℕ} {T : Type}

/-- read access `grid[p]` (src/grid/gridstorage/single-array-grid-storage-base.hpp `get`) -/
def read (g : GridMap n T) (p : Idx n) : Option T :=
  if g.range.inside p then some (g.cell p) else none

/-- write access `grid[p] = v` -/
def write (g : GridMap n T) (p : Idx n) (v : T) : Option (GridMap n T) :=
  if g.range.inside p then some ⟨g.range, Function.update g.cell p v⟩ else none

end GridMap

/-- `it1 = r1.begin(); it2 = r2.begin(); end = r1.end(); while (it1 != end) { body; ++it1; ++it2; }`:
src/grid/domainsubdivision.t 54-62, 66-75, 87-96, 100-109.
`ParLoop r₁ r₂ body it₁ it₂ s out`: the loop started in `s` at the two iterators terminates with `out`; `out = none` if
the body accesses a cell outside of the grid. -/
inductive ParLoop {n : ℕ} {σ : Type} (r₁ r₂ : Range n) (body : Idx n → Idx n → σ → Option σ) :
    RangeIter n → RangeIter n → σ → Option σ → Prop
  | done {it₁ it₂ s} : it₁ = r₁.iterEnd → ParLoop r₁ r₂ body it₁ it₂ s (some s)
  | fault {it₁ it₂ s} : it₁ ≠ r₁.iterEnd → body it₁.pos it₂.pos s = none →
      ParLoop r₁ r₂ body it₁ it₂ s none
  | step {it₁ it₂ s s' out} : it₁ ≠ r₁.iterEnd → body it₁.pos it₂.pos s = some s' →
      ParLoop r₁ r₂ body (it₁.increment r₁) (it₂.increment r₂) s' out →
      ParLoop r₁ r₂ body it₁ it₂ s out

namespace Serial

variable {n : ℕ} {T : Type}

/-- `grid[*dst] = grid[*src]` -/
def copyCell (dst src : Idx n) (g : GridMap n T) : Option (GridMap n T) :=
  (g.read src).bind fun v => g.write dst v

/-- `grid[*a] += grid[*b]; grid[*b] = grid[*a];` -/
def addCell [Add T] (a b : Idx n) (g : GridMap n T) : Option (GridMap n T) :=
  (g.read b).bind fun y => (g.read a).bind fun x => (g.write a (x + y)).bind fun g' => copyCell b a g'

/-- `SerialSubdivision::exchange(grid, dim)`: src/grid/domainsubdivision.t 46-76. -/
def ExchangeDim (B : Boundary n) (dim : Fin n) (g : GridMap n T) (out : Option (GridMap n T)) : Prop :=
  let loGhost := B.ghostDomain dim .min
  let hiGhost := B.ghostDomain dim .max
  let loSource := B.ghostSourceDomain dim .min
  let hiSource := B.ghostSourceDomain dim .max
  ∃ mid, ParLoop loGhost hiSource (fun loIt hiIt => copyCell loIt hiIt) loGhost.iterBegin hiSource.iterBegin g mid ∧
    match mid with
    | none => out = none
    | some g₁ =>
      ParLoop loSource hiGhost (fun loIt hiIt => copyCell hiIt loIt) loSource.iterBegin hiGhost.iterBegin g₁ out

/-- `SerialSubdivision::accumulate(grid, dim)`: src/grid/domainsubdivision.t 79-111. -/
def AccumulateDim [Add T] (B : Boundary n) (dim : Fin n) (g : GridMap n T) (out : Option (GridMap n T)) : Prop :=
  let loGhost := B.ghostDomain dim .min
  let hiGhost := B.ghostDomain dim .max
  let loSource := B.ghostSourceDomain dim .min
  let hiSource := B.ghostSourceDomain dim .max
  ∃ mid, ParLoop loGhost hiSource (fun loIt hiIt => addCell loIt hiIt) loGhost.iterBegin hiSource.iterBegin g mid ∧
    match mid with
    | none => out = none
    | some g₁ =>
      ParLoop loSource hiGhost (fun loIt hiIt => addCell hiIt loIt) loSource.iterBegin hiGhost.iterBegin g₁ out

/-- `for (size_t i=0; i<Rank; ++i) step(grid, i)`, `out = none` as soon as one step fails. -/
def OverDims (step : Fin n → GridMap n T → Option (GridMap n T) → Prop) :
    List (Fin n) → GridMap n T → Option (GridMap n T) → Prop
  | [], g, out => out = some g
  | d :: ds, g, out => ∃ mid, step d g mid ∧
      match mid with
      | none => out = none
      | some g₁ => OverDims step ds g₁ out

/-- `DomainSubdivision::exchange(grid)`: src/grid/domainsubdivision.hpp 228-230. -/
def Exchange (B : Boundary n) : GridMap n T → Option (GridMap n T) → Prop :=
  OverDims (ExchangeDim B) (List.finRange n)

/-- `DomainSubdivision::accumulate(grid)`: src/grid/domainsubdivision.hpp 232-234. -/
def Accumulate [Add T] (B : Boundary n) : GridMap n T → Option (GridMap n T) → Prop :=
  OverDims (AccumulateDim B) (List.finRange n)

end Serial

end Schnek
