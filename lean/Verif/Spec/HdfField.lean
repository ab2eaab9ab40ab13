import Verif.Model.HdfField
import Verif.Props.Allocation
import Verif.Spec.Hdf

/-!
# What the properties of grid diagnostics mean
-/

namespace Schnek.Spec

open Schnek.Alloc Schnek.HdfField Schnek.Props

variable {T : Type} {n : ℕ}

/-- The grid `a` has no storage of a size it remembers and shares its data with no other grid, as after default construction. -/
structure Fresh (h : Heap n) (a : ℕ) : Prop where
  alive : ∃ ob, h.objs a = some ob ∧ ob.bufSize = 0
  alone : ∀ x, Shares h x a → x = a

/-- The operation uses the grid. -/
def Mentions : Op n → ℕ → Prop
  | .construct a, x => x = a
  | .copy a b, x => x = a ∨ x = b
  | .assign a b, x => x = a ∨ x = b
  | .resize a _ _ _, x => x = a
  | .destroy a, x => x = a

/-- The program may do this, if it is to leave the grids `f` and `g` bound to their data: anything but assigning to them or destroying them. (Assignments
between other grids are restricted as in `C09`.) -/
def Leaves (lazy : Bool) (f g : ℕ) (W : World T n) : Action T n → Prop
  | .grid op => AssignOk lazy W.heap op ∧ ¬ rebinds op f ∧ ¬ rebinds op g
  | .set _ _ _ => True

/-- Any number of such steps lead from one state to another. -/
inductive Later (o : Order) (lazy : Bool) (f g : ℕ) (W : World T n) : World T n → Prop
  | refl : Later o lazy f g W W
  | step {W1 W2 : World T n} {act : Action T n} : Later o lazy f g W W1 → Leaves lazy f g W1 act → W1.act o lazy act = some W2 →
      Later o lazy f g W W2

/-- A diagnostic of a program: it has been initialised in the state `W0` with the field `f`, and after any number of steps of the program the state
is `W`. Its members were as after construction when it was initialised. -/
structure Diagnosed (o : Order) (lazy : Bool) (f : ℕ) (ghost : ℤ) (lo hi : Idx (n + 1)) (W0 : World T n) (d : Diag n) (W : World T n) : Prop where
  reachable : Reach o lazy W0.heap
  field : W0.heap.objs f ≠ none
  members : Fresh W0.heap d.copy ∧ Fresh W0.heap d.grid ∧ d.copy ≠ d.grid ∧ f ≠ d.copy ∧ f ≠ d.grid
  init : ∃ t W1, W0.heap.objs t = none ∧ W0.init o lazy f d.copy d.grid t ghost lo hi = some (W1, d) ∧ Later o lazy f d.grid W1 W

/-- The range of the grid `f`. -/
def HasRange (W : World T n) (f : ℕ) (r : Range (n + 1)) : Prop := ∃ ob, W.heap.objs f = some ob ∧ ob.range = r

/-- The grid `f` has this range, which is not empty, and storage for it. -/
structure Sized (o : Order) (W : World T n) (f : ℕ) (r : Range (n + 1)) : Prop where
  range : HasRange W f r
  nonempty : ∀ i, r.lo i ≤ r.hi i
  fits : ∏ i, extent r.lo r.hi i < 2 ^ 64
  storage : ∃ p x, W.get o f p = some x

/-- a process with a diagnostic: its field with the number of ghost cells, its state when the diagnostic was initialised and its state now -/
structure Process (T : Type) (n : ℕ) where
  field : ℕ
  ghost : ℤ
  range : Range (n + 1)
  before : World T n
  diag : Diag n
  now : World T n

/-- The inner part of a field with this range. -/
def InnerPart (r : Range (n + 1)) (ghost : ℤ) (p : Idx (n + 1)) : Prop := InBox (fun i => r.lo i + ghost) (fun i => r.hi i - ghost) p

/-- The diagnostic is for the domain from `lo` to `hi`, in which the inner part of the field lies; the field has the same range as when the diagnostic
was initialised. -/
structure Process.Ready (lazy : Bool) (lo hi : Idx (n + 1)) (P : Process T n) : Prop where
  diagnosed : Diagnosed .c lazy P.field P.ghost lo hi P.before P.diag P.now
  before : HasRange P.before P.field P.range
  now : Sized .c P.now P.field P.range
  ghost : 0 ≤ P.ghost
  inside : ∀ i, lo i ≤ P.range.lo i + P.ghost ∧ P.range.lo i + P.ghost ≤ P.range.hi i - P.ghost + 1 ∧ P.range.hi i - P.ghost ≤ hi i
  int : ∀ i, IsInt (lo i) ∧ IsInt (hi i) ∧ IsInt (P.range.lo i) ∧ IsInt (P.range.hi i)

end Schnek.Spec
