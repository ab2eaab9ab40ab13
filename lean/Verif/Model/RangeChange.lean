import Verif.Model.Range

/-!
# Loops over a range that changes

`src/grid/range.hpp`: an iterator has a reference to its range (range.hpp 292), and reads the limits of the range each time it is advanced.
-/

namespace Schnek.RangeChange

variable {n : ℕ}

/-- `while (it != e) { ... ; ++it; }`, where the statements in the loop, or calls made there, may change the range or destroy it.
`R k` is the range when the condition is evaluated for the `k`-th time, counted from 0 (`none`: it has been destroyed); it is the same
when the iterator is advanced before that. `stop k` is the iterator that `it` is compared with, `none` if there is none because the range
has been destroyed. Started with the `k`-th evaluation of the condition the loop ends after the positions in the list.
The iterator reads the range in `increment`: range.hpp 303-317. Comparison of iterators: range.hpp 336-342. -/
inductive Loop (R : ℕ → Option (Range n)) (stop : ℕ → Option (RangeIter n)) : ℕ → RangeIter n → List (Idx n) → Prop
  /-- the condition is false -/
  | done {k it} : stop k = some it → Loop R stop k it []
  /-- the condition is true, and the iterator is advanced after the statements in the loop -/
  | step {k it e r l} : stop k = some e → it ≠ e → R (k + 1) = some r → Loop R stop (k + 1) (it.increment r) l →
      Loop R stop k it (it.pos :: l)

/-- `for (it = r.begin(); it != r.end(); ++it)`: range.hpp 352-359 -/
def ForLoop (R : ℕ → Option (Range n)) (l : List (Idx n)) : Prop :=
  ∃ r, R 0 = some r ∧ Loop R (fun k => (R k).map Range.iterEnd) 0 r.iterBegin l

/-- `e = r.end(); for (it = r.begin(); it != e; ++it)` as in domainsubdivision.t 56-62 and fieldtools.t 47-64, also `for (p : r)` -/
def SavedLoop (R : ℕ → Option (Range n)) (l : List (Idx n)) : Prop :=
  ∃ r, R 0 = some r ∧ Loop R (fun _ => some r.iterEnd) 0 r.iterBegin l

end Schnek.RangeChange
