import Verif.Model.SubGrid

/-!
# Two sub-grids of the same grid

`src/grid/grid.t`, `src/grid/subgrid.hpp`: `operator+=` and `operator-=` when both operands refer to the same base grid, as in
`boundary.getGhostBoundary(d, Min, grid) += ...`. What has been written through the first is read through the second.
-/

namespace Schnek.SubGrid

variable {T : Type} {n : ℕ}

/-- the loop of `operator+=` and `operator-=` for two sub-grids of one grid: grid.t 428-433, 487-492, for the positions of the two
range iterators. (An iterator that is past the end goes on from the start; that case is not modelled, `none`.) -/
def opLoopSame (op : T → T → T) (s s2 : SubGrid n) : List (Idx (n + 1)) → List (Idx (n + 1)) → Grid T n → Option (Grid T n)
  | _, [], g => some g
  | [], _ :: _, _ => none
  | p :: l, q :: l2, g => do
    let x ← g.get? p
    let y ← g.get? q
    let g' ← g.set? p (op x y)
    let _ ← s.element g' (s.nextPos l)
    let _ ← s2.element g' (s2.nextPos l2)
    s.opLoopSame op s2 l l2 g'

/-- `operator+=` and `operator-=` for two sub-grids of one grid: grid.t 415-436, 474-495 -/
def opAssignSame (op : T → T → T) (s s2 : SubGrid n) (l l2 : List (Idx (n + 1))) (g : Grid T n) : Option (Grid T n) := do
  let _ ← s.element g s.domain.lo
  let _ ← s2.element g s2.domain.lo
  let _ ← s2.element g s2.domain.lo
  s.opLoopSame op s2 l l2 g

/-- `operator+=` and `operator-=` for a sub-grid and its own base grid: grid.t 444-465, 503-524: the same positions in both -/
def opAssignBase (op : T → T → T) (s : SubGrid n) : List (Idx (n + 1)) → Grid T n → Option (Grid T n)
  | [], g => some g
  | p :: l, g => do
    let q ← s.index p
    let x ← g.get? q
    let y ← g.get? p
    let g' ← g.set? q (op x y)
    s.opAssignBase op l g'

end Schnek.SubGrid
