import Verif.Model.Range
import Mathlib.Logic.Relation

/-!
# Model of function objects in `forEach`, and of parallel iteration

`src/grid/iteration/range-iteration.hpp`, `src/grid/iteration/kokkos-iteration.hpp`

In `Verif.Model.Range` the function that is passed to `forEach` acts on a state outside. Here it is an object that may have a state of its
own and may change the position it gets, and, with Kokkos, is called by many threads at once.
-/

namespace Schnek

variable {n : ℕ} {σ W : Type}

/-- A function object with a state `σ` of its own: what `operator()(pos)` does to it, to `pos`, if the parameter is a
reference, and to the rest of the world `W`. -/
abbrev FunctionObject (n : ℕ) (σ W : Type) := σ → Idx n → W → σ × Idx n × W

namespace Range

/-- The loop `for (pos[i]=lo; pos[i]<=hi; ++pos[i])` after its initialisation: range-iteration.hpp 123-126, 184-187. -/
inductive Loop (i : Fin n) (hi : ℤ) (body : Idx n × W → Idx n × W → Prop) : Idx n × W → Idx n × W → Prop
  | done {s} : ¬ s.1 i ≤ hi → Loop i hi body s s
  | step {s s' s''} : s.1 i ≤ hi → body s s' → Loop i hi body (Function.update s'.1 i (s'.1 i + 1), s'.2) s'' → Loop i hi body s s''

/-- `RangeCIterationPolicyImpl<rank,dim>::forEach(range, pos, func)`: range-iteration.hpp 92-130. `func` is passed by value, each call gets a copy
of the caller's object, and what happens to the copy is not seen by the caller. -/
def RunC (r : Range n) (f : FunctionObject n σ W) : (dim : ℕ) → dim ≤ n → σ → Idx n × W → Idx n × W → Prop
  | 0, _, func, s, s' => s' = (f func s.1 s.2).2
  | dim + 1, h, func, s, s' =>
    let idim : Fin n := ⟨n - (dim + 1), by omega⟩
    Loop idim (r.hi idim) (RunC r f dim (Nat.le_of_succ_le h) func) (Function.update s.1 idim (r.lo idim), s.2) s'

/-- `RangeCIterationPolicy::forEach(range, func)` ends and has this effect: range-iteration.hpp 138-142. -/
def ForEachC (r : Range n) (f : FunctionObject n σ W) (func : σ) (w w' : W) : Prop :=
  ∃ pos, RunC r f n le_rfl func (r.lo, w) (pos, w')

/-- `RangeFortranIterationPolicyImpl<rank>::forEach(range, pos, func)`: range-iteration.hpp 153-191. -/
def RunF (r : Range n) (f : FunctionObject n σ W) : (rank : ℕ) → rank ≤ n → σ → Idx n × W → Idx n × W → Prop
  | 0, _, func, s, s' => s' = (f func s.1 s.2).2
  | rank + 1, h, func, s, s' =>
    Loop ⟨rank, h⟩ (r.hi ⟨rank, h⟩) (RunF r f rank (Nat.le_of_succ_le h) func) (Function.update s.1 ⟨rank, h⟩ (r.lo ⟨rank, h⟩), s.2) s'

/-- `RangeFortranIterationPolicy::forEach(range, func)` ends and has this effect: range-iteration.hpp 200-204. -/
def ForEachF (r : Range n) (f : FunctionObject n σ W) (func : σ) (w w' : W) : Prop :=
  ∃ pos, RunF r f n le_rfl func (r.lo, w) (pos, w')

end Range

/-! ## parallel iteration -/

/-- What a call `func(pos)` does to memory: it reads and writes single locations. What comes after reading depends on the value. -/
inductive Thread (L V : Type)
  | done
  | read (l : L) (next : V → Thread L V)
  | write (l : L) (v : V) (next : Thread L V)

namespace Thread

variable {L V : Type} [DecidableEq L]

/-- the effect of a call that is not interrupted -/
def run : Thread L V → (L → V) → L → V
  | .done, m => m
  | .read l next, m => (next (m l)).run m
  | .write l v next, m => next.run (Function.update m l v)

end Thread

/-- The state during `Kokkos::parallel_for`: memory, and what is left to be done for each index. -/
structure ParallelState (n : ℕ) (L V : Type) where
  mem : L → V
  left : Idx n → Thread L V

variable {L V : Type} [DecidableEq L]

/-- `RangeKokkosIterationPolicy::forEach(range, func)`: kokkos-iteration.hpp 83-137. Kokkos is told to call `func` for each index in the half-open
box from `lo` to `hi + 1`. Simplification: `int` is ℤ; of Kokkos it is used that it makes these calls, each once, and
nothing about their order or which of them happen at the same time. `func` is copied and `operator() const` called (lines 68-77), so all that calls can share is in memory. -/
def ParallelState.begin (r : Range n) (func : Idx n → Thread L V) (m : L → V) : ParallelState n L V :=
  ⟨m, fun p => if (List.finRange n).all (fun i => decide (r.lo i ≤ p i) && decide (p i < r.hi i + 1)) then func p else .done⟩

/-- One of the calls goes on. -/
inductive ParallelStep : ParallelState n L V → ParallelState n L V → Prop
  | read {s : ParallelState n L V} {p l next} : s.left p = .read l next →
      ParallelStep s ⟨s.mem, Function.update s.left p (next (s.mem l))⟩
  | write {s : ParallelState n L V} {p l v next} : s.left p = .write l v next →
      ParallelStep s ⟨Function.update s.mem l v, Function.update s.left p next⟩

/-- all calls have ended; this is what `Kokkos::fence()` waits for, if the program calls it -/
def ParallelState.Ended (s : ParallelState n L V) : Prop := ∀ p, s.left p = .done

/-- `forEach` may return in this state: kokkos-iteration.hpp 94-106, 116-137. `Kokkos::parallel_for` may return before the calls have ended, and
nothing after it waits for them. -/
def ParallelState.MayReturn (r : Range n) (func : Idx n → Thread L V) (m : L → V) (s : ParallelState n L V) : Prop :=
  Relation.ReflTransGen ParallelStep (ParallelState.begin r func m) s

end Schnek
