import Verif.Lemma.LazyStatistics

/-!
# C146: what the lazy allocation policy does with memory and with time

A grid with the lazy policy that is resized to any sequence of sizes. `reallocates s n` is whether a resize to `n` elements frees the buffer
and allocates another one; `bufSize` is the number of elements that are allocated.
-/

namespace Schnek.Props.LazyStats

open Schnek.LazyStats Schnek.Lemma.LazyStats

/-- C146. The two numbers a resize takes from the statistics are the ones the program writes with square roots: the condition
`newSize + 32 * sqrt(avgVar) < bufSize && bufSize > 100` and the extra room `(size_t)(4 * sqrt(avgVar))`. -/
theorem C146_condition (hist : List ℕ) (n : ℕ) :
    (reallocates (run hist) n = true ↔
      (run hist).bufSize < n ∨
        ((n : ℝ) + 32 * √((run (hist ++ [n])).avgVar : ℝ) < (run hist).bufSize ∧ 100 < (run hist).bufSize)) ∧
    (reallocates (run hist) n = true → 0 < n →
      (run (hist ++ [n])).bufSize = n + ⌊4 * √((run (hist ++ [n])).avgVar : ℝ)⌋₊) ∧
    (reallocates (run hist) n = false → (run (hist ++ [n])).bufSize = (run hist).bufSize) := by
  have hv : 0 ≤ nextVar (run hist) n := var_nonneg (run_var hist) n
  rw [run_snoc]
  refine ⟨?_, ?_, ?_⟩
  · rw [realloc_iff, shrink_iff hv]
    rfl
  · intro hr hn
    have e : (resize (run hist) n).bufSize = Alloc.allocSize true n (slack (nextVar (run hist) n)) := by
      unfold resize; simp only [if_pos hr]
    rw [e, slack_eq hv]
    unfold Alloc.allocSize
    rw [if_pos rfl, if_neg (by omega)]
    rfl
  · intro hr
    unfold resize
    simp only [hr]
    rfl

/-- C146. After every history of resizes the buffer has room for the grid, and it is never larger than five times the largest size the
grid ever had (or ten elements). -/
theorem C146_memory_bound (hist : List ℕ) (n S : ℕ) (hS : ∀ m ∈ hist ++ [n], m ≤ S) :
    n ≤ (run (hist ++ [n])).bufSize ∧ (run (hist ++ [n])).bufSize ≤ max 10 (5 * S) := by
  refine ⟨?_, (run_bounded _ hS).buf⟩
  rw [run_snoc]
  exact room _ _

/-- the buffer of a new grid that is resized to 1000 elements has 1849 -/
example : (run [1000]).bufSize = 1000 + 849 := by
  decide +kernel

/-- C146. A grid that keeps its size, after whatever history, is not reallocated any more from some point on, and the memory it does not need
has been given back, down to 100 elements. -/
theorem C146_settles (hist : List ℕ) (N : ℕ) :
    ∃ n0, ∀ n, n0 ≤ n →
      reallocates (run (hist ++ List.replicate n N)) N = false ∧
      (run (hist ++ List.replicate n N)).bufSize ≤ max N 100 := by
  obtain ⟨n0, h⟩ := const_settles (run hist) (run_var hist) N
  refine ⟨n0, fun n hn => ?_⟩
  rw [run_append, iter_const]
  exact h n hn

/-- C146. Memory is thrown away late: when a resize gives back 14 elements or more, then none of the 20 resizes before it needed the buffer
that is thrown away, nor did any of them allocate memory. Any resize `a` is meant, with any sizes before it and fewer than 20 after it.

Full property: the same for any number of elements. It is false, see `C146_violated_alternating`. -/
theorem C146_thrown_away_late_partial (hist : List ℕ) (a : ℕ) (since : List ℕ) (n : ℕ) (hk : since.length < 20)
    (hr : reallocates (run (hist ++ [a] ++ since)) n = true)
    (hD : n + 14 ≤ (run (hist ++ [a] ++ since)).bufSize) :
    a < (run (hist ++ [a] ++ since)).bufSize ∧ reallocates (run hist) a = false := by
  have e : run (hist ++ [a] ++ since) = since.foldl resize (resize (run hist) a) := by
    rw [run_append, run_snoc]
  rw [e] at hr hD ⊢
  rw [realloc_iff] at hr
  have hs := hr.resolve_left (by omega)
  exact ⟨(throw_core (run_var hist) a n since hk hs hD).1, (throw_late (run_var hist) a n since hk hs hD).2⟩

/-- memory is thrown away: a grid of 1000 elements that is resized to 10 again and again keeps its buffer of 1849 elements for 51 resizes -/
example : reallocates (run ([1000] ++ List.replicate 50 10)) 10 = false ∧ reallocates (run ([1000] ++ List.replicate 51 10)) 10 = true := by
  decide +kernel

/-- C146 fails: sizes that alternate between `N` and `N + 1`, for any `N` from 100 on, make every resize from some point on free the buffer
and allocate another one, whatever the grid was used for before. The class comment says "Deallocation and allocation is performed only when
required" and "Use this, when a resize is expected regularly", and the manual "Only after a large number of resize() calls with low memory
usage will the extra memory be thrown away". -/
theorem C146_violated_alternating (hist : List ℕ) (N : ℕ) (hN : 100 ≤ N) :
    ∃ n0, ∀ n, n0 ≤ n →
      reallocates (run (hist ++ (List.range n).map (fun i => N + i % 2))) (N + n % 2) = true := by
  obtain ⟨n0, h⟩ := alternate_never_settles (run hist) (run_var hist) N hN
  refine ⟨n0, fun n hn => ?_⟩
  have e : ∀ m, (List.foldl resize (run hist) ((List.range m).map (fun i => N + i % 2))) =
      iter (run hist) (fun i => N + i % 2) m := by
    intro m
    induction m with
    | zero => rfl
    | succ m ih =>
      rw [List.range_succ, List.map_append, List.foldl_append, ih]
      rfl
  rw [run_append, e]
  exact h n hn

end Schnek.Props.LazyStats
