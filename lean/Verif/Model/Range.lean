import Mathlib.Logic.Function.Basic
import Mathlib.Data.Fintype.Basic
import Mathlib.Data.List.FinRange
import Mathlib.Data.Fin.VecNotation

/-!
# Model of `schnek::Array<int,rank>`, `schnek::Range` and the range iteration policies
-/

namespace Schnek

/-- `Array<int,rank>` used as a grid index: src/grid/array.hpp (class `Array`).
Simplification: `int` is ℤ (no overflow). -/
abbrev Idx (n : ℕ) := Fin n → ℤ

/-- `Range<int,rank>`: src/grid/range.hpp 43-91, two corners, both inclusive. -/
structure Range (n : ℕ) where
  /-- `Range::lo` -/
  lo : Idx n
  /-- `Range::hi` -/
  hi : Idx n

instance {n : ℕ} : DecidableEq (Range n) := fun a b =>
  decidable_of_iff (a.lo = b.lo ∧ a.hi = b.hi) (by cases a; cases b; simp)

namespace Range

variable {n : ℕ}

/-- `Range::Range()`: src/grid/range.hpp 52. -/
def default0 (n : ℕ) : Range n := ⟨fun _ => 0, fun _ => 0⟩

/-- `Range::inside`: src/grid/range.hpp 94-100. The loop returns false at the first component
outside of the bounds, and true if there is none. -/
def inside (r : Range n) (p : Idx n) : Bool :=
  (List.finRange n).all fun i => ! (decide (p i < r.lo i) || decide (p i > r.hi i))

end Range

/-- `Range::iterator`: src/grid/range.hpp 285-298, fields `pos` and `atEnd`
(the reference `domain` is passed separately). -/
structure RangeIter (n : ℕ) where
  /-- current position -/
  pos : Idx n
  /-- true if the iterator has reached the end -/
  atEnd : Bool

instance {n : ℕ} : DecidableEq (RangeIter n) := fun a b =>
  decidable_of_iff (a.pos = b.pos ∧ a.atEnd = b.atEnd) (by cases a; cases b; simp)

namespace RangeIter

variable {n : ℕ}

/-- The `while (d>0)` loop of `Range::iterator::increment`: src/grid/range.hpp 305-316.
Returns the new position and whether the loop ran through (then `atEnd` is set). -/
def incLoop (r : Range n) : (d : ℕ) → d ≤ n → Idx n → Idx n × Bool
  | 0, _, pos => (pos, true)
  | d + 1, h, pos =>
    let i : Fin n := ⟨d, h⟩
    let pos1 := Function.update pos i (pos i + 1)
    if pos1 i > r.hi i then
      incLoop r d (Nat.le_of_succ_le h) (Function.update pos1 i (r.lo i))
    else
      (pos1, false)

/-- `Range::iterator::increment` / `operator++`: src/grid/range.hpp 303-327. -/
def increment (r : Range n) (it : RangeIter n) : RangeIter n :=
  let res := incLoop r n le_rfl it.pos
  ⟨res.1, it.atEnd || res.2⟩

end RangeIter

namespace Range

variable {n : ℕ}

/-- `Range::begin`: src/grid/range.hpp 352-354. -/
def iterBegin (r : Range n) : RangeIter n := ⟨r.lo, false⟩

/-- `Range::end`: src/grid/range.hpp 357-359. -/
def iterEnd (r : Range n) : RangeIter n := ⟨r.lo, true⟩

/-- A user loop `while (it != end) { use *it; ++it; }` (e.g. src/grid/domainsubdivision.t 54-62,
src/tools/fieldtools.t 47-64). `IterLoop r it l`: started at `it` the loop terminates after having
visited exactly the positions `l`, in this order. Iterator equality is src/grid/range.hpp 336-339
(`atEnd` and `pos` both equal). -/
inductive IterLoop (r : Range n) : RangeIter n → List (Idx n) → Prop
  | done {it} : it = r.iterEnd → IterLoop r it []
  | step {it l} : it ≠ r.iterEnd → IterLoop r (it.increment r) l → IterLoop r it (it.pos :: l)

end Range

/-- The C++ loop `for (x=lo; x<=hi; ++x) body(x)` with a body that changes the state `σ`.
Simplification: the loop variable is not changed by the body (true for all uses). -/
def loopLE {σ : Type*} (lo hi : ℤ) (body : ℤ → σ → σ) (s : σ) : σ :=
  go (hi + 1 - lo).toNat lo s
where
  /-- `k` remaining rounds, the loop variable is `x` -/
  go : ℕ → ℤ → σ → σ
    | 0, _, s => s
    | k + 1, x, s => go k (x + 1) (body x s)

namespace Range

variable {n : ℕ} {σ : Type*}

/-- `RangeCIterationPolicyImpl<rank,dim>::forEach`:
src/grid/iteration/range-iteration.hpp 92-130. The template recursion counts `dim` down to 0;
`idim = rank - dim`. The position array is shared between the recursion levels, therefore it is
part of the state. The functor `f` may change a state `σ`. -/
def forEachCImpl (r : Range n) (f : Idx n → σ → σ) :
    (dim : ℕ) → dim ≤ n → Idx n × σ → Idx n × σ
  | 0, _, (pos, s) => (pos, f pos s)
  | dim + 1, h, st =>
    let idim : Fin n := ⟨n - (dim + 1), by omega⟩
    loopLE (r.lo idim) (r.hi idim)
      (fun x (st : Idx n × σ) =>
        forEachCImpl r f dim (Nat.le_of_succ_le h) (Function.update st.1 idim x, st.2)) st

/-- `RangeCIterationPolicy::forEach`: src/grid/iteration/range-iteration.hpp 138-142. -/
def forEachC (r : Range n) (f : Idx n → σ → σ) (s : σ) : σ :=
  (forEachCImpl r f n le_rfl (r.lo, s)).2

/-- `RangeFortranIterationPolicyImpl<rank>::forEach`:
src/grid/iteration/range-iteration.hpp 153-191. The recursion counts the rank down, the loop runs
over dimension `rank-1`. -/
def forEachFImpl (r : Range n) (f : Idx n → σ → σ) :
    (rank : ℕ) → rank ≤ n → Idx n × σ → Idx n × σ
  | 0, _, (pos, s) => (pos, f pos s)
  | rank + 1, h, st =>
    let dim : Fin n := ⟨rank, h⟩
    loopLE (r.lo dim) (r.hi dim)
      (fun x (st : Idx n × σ) =>
        forEachFImpl r f rank (Nat.le_of_succ_le h) (Function.update st.1 dim x, st.2)) st

/-- `RangeFortranIterationPolicy::forEach`: src/grid/iteration/range-iteration.hpp 200-204. -/
def forEachF (r : Range n) (f : Idx n → σ → σ) (s : σ) : σ :=
  (forEachFImpl r f n le_rfl (r.lo, s)).2

end Range

end Schnek
