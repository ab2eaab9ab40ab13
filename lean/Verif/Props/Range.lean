import Verif.Lemma.Range
import Mathlib.Tactic.FinCases
import Mathlib.Tactic.NormNum

/-!
# C01, C02, C03: iteration over ranges
-/

namespace Schnek.Props

open Schnek Schnek.Spec Schnek.Lemma

variable {n : ℕ}

/-- **C01** For a range with `lo ≤ hi` the loop from `begin()` to `end()` terminates and visits
exactly the indices of the box, each once, in lexicographic order; it has only this one outcome. -/
theorem C01_iterator_enumerates_range (r : Range n) (hne : ∀ i, r.lo i ≤ r.hi i) :
    ∃ l, Enumerates LexLt (InBox r.lo r.hi) l ∧
      ∀ l', r.IterLoop r.iterBegin l' ↔ l' = l := by
  have hlo : InBox r.lo r.hi r.lo := fun i => ⟨le_rfl, hne i⟩
  obtain ⟨l, h1, h2⟩ := iterLoop_from r (vol r.lo r.hi n le_rfl - pre r.lo r.hi r.lo n le_rfl).toNat
    r.lo hlo (Int.self_le_toNat _)
  refine ⟨l, ⟨h2.sorted, fun p => ?_, h2.nodup⟩, fun l' => ⟨fun h => iterLoop_unique h h1, ?_⟩⟩
  · rw [h2.mem_iff]
    refine ⟨fun h => h.1, fun h => ⟨h, ?_⟩⟩
    have h0 : ∀ (k : ℕ) (hk : k ≤ n), pre r.lo r.hi r.lo k hk = 0 := by
      intro k
      induction k with
      | zero => intro _; rfl
      | succ k ih => intro hk; simp [pre, ih]
    rw [h0]
    exact (pre_bounds n le_rfl (inBoxK_of_inBox h n)).1
  · rintro rfl; exact h1

/-- non-vacuity: a 2d range -/
example : ∃ r : Range 2, (∀ i, r.lo i ≤ r.hi i) ∧ r.lo 0 < r.hi 0 ∧ r.lo 1 < r.hi 1 :=
  ⟨⟨![-1, 2], ![1, 5]⟩, by decide, by decide, by decide⟩

/-- the model's loop really runs: the 2x2 box -/
example : Range.IterLoop (⟨![0, 0], ![1, 1]⟩ : Range 2) (Range.iterBegin ⟨![0, 0], ![1, 1]⟩)
    [![0, 0], ![0, 1], ![1, 0], ![1, 1]] := by
  refine .step (it := ⟨![0, 0], false⟩) (by decide) ?_
  rw [show RangeIter.increment (⟨![0, 0], ![1, 1]⟩ : Range 2) ⟨![0, 0], false⟩ = ⟨![0, 1], false⟩ by decide]
  refine .step (by decide) ?_
  rw [show RangeIter.increment (⟨![0, 0], ![1, 1]⟩ : Range 2) ⟨![0, 1], false⟩ = ⟨![1, 0], false⟩ by decide]
  refine .step (by decide) ?_
  rw [show RangeIter.increment (⟨![0, 0], ![1, 1]⟩ : Range 2) ⟨![1, 0], false⟩ = ⟨![1, 1], false⟩ by decide]
  refine .step (by decide) (.done (by decide))

/-- **C01** `inside` decides membership in the box. -/
theorem C01_inside_iff (r : Range n) (p : Idx n) : r.inside p = true ↔ InBox r.lo r.hi p :=
  inside_iff r p

/-- **C02** `RangeCIterationPolicy::forEach` calls the functor exactly once for every index of the
box (no call for an empty box), in lexicographic order; `f` is an arbitrary functor with effects on
an arbitrary state. -/
theorem C02_forEachC (r : Range n) :
    ∃ l, Enumerates LexLt (InBox r.lo r.hi) l ∧
      ∀ (σ : Type) (f : Idx n → σ → σ) (s : σ),
        r.forEachC f s = l.foldl (fun s p => f p s) s := by
  refine ⟨enumC r n le_rfl r.lo, ⟨pairwise_enumC r n le_rfl r.lo, fun p => ?_, ?_⟩, fun σ f s =>
    (forEachCImpl_spec r f n le_rfl r.lo s).1⟩
  · rw [mem_enumC]
    simp only [Nat.sub_self, Nat.not_lt_zero, false_implies, implies_true, true_and, Nat.zero_le,
      true_implies]
    exact Iff.rfl
  · exact (pairwise_enumC r n le_rfl r.lo).imp fun {a b} h hab => by
      subst hab; exact lexLt_irrefl _ h

/-- **C02** `RangeFortranIterationPolicy::forEach`: same set, once each, first dimension fastest. -/
theorem C02_forEachF (r : Range n) :
    ∃ l, Enumerates ColexLt (InBox r.lo r.hi) l ∧
      ∀ (σ : Type) (f : Idx n → σ → σ) (s : σ),
        r.forEachF f s = l.foldl (fun s p => f p s) s := by
  refine ⟨enumF r n le_rfl r.lo, ⟨pairwise_enumF r n le_rfl r.lo, fun p => ?_, ?_⟩, fun σ f s =>
    (forEachFImpl_spec r f n le_rfl r.lo s).1⟩
  · rw [mem_enumF]
    constructor
    · intro h i; exact h.2 i i.2
    · intro h; exact ⟨fun i hi => absurd i.2 (by omega), fun i _ => h i⟩
  · exact (pairwise_enumF r n le_rfl r.lo).imp fun {a b} h hab => by
      subst hab; exact lexLt_irrefl _ ((colexLt_iff_rev _ _).mp h)

/-- **C02** an empty range produces no call at all (both policies): the state is unchanged. -/
theorem C02_forEach_empty (r : Range n) (hempty : ∃ i, r.hi i < r.lo i) (σ : Type)
    (f : Idx n → σ → σ) (s : σ) : r.forEachC f s = s ∧ r.forEachF f s = s := by
  obtain ⟨i, hi⟩ := hempty
  have hno : ∀ p, ¬ InBox r.lo r.hi p := fun p hp => by have := hp i; omega
  constructor
  · obtain ⟨l, h1, h2⟩ := C02_forEachC r
    rw [h2, List.eq_nil_iff_forall_not_mem.mpr fun p hp => hno p ((h1.mem_iff p).mp hp)]; rfl
  · obtain ⟨l, h1, h2⟩ := C02_forEachF r
    rw [h2, List.eq_nil_iff_forall_not_mem.mpr fun p hp => hno p ((h1.mem_iff p).mp hp)]; rfl

/-- the two policies really visit in different order -/
example : (⟨![0, 0], ![1, 1]⟩ : Range 2).forEachC (fun p (s : List (ℤ × ℤ)) => s ++ [(p 0, p 1)]) []
      = [(0, 0), (0, 1), (1, 0), (1, 1)] ∧
    (⟨![0, 0], ![1, 1]⟩ : Range 2).forEachF (fun p (s : List (ℤ × ℤ)) => s ++ [(p 0, p 1)]) []
      = [(0, 0), (1, 0), (0, 1), (1, 1)] := by decide

example : ∃ r : Range 2, (∃ i, r.hi i < r.lo i) ∧ ∃ i, r.lo i < r.hi i :=
  ⟨⟨![0, 0], ![3, -1]⟩, ⟨1, by decide⟩, ⟨0, by decide⟩⟩

/-- **C03 (finding: violated)** For *every* empty range of rank ≥ 1 `begin() ≠ end()`, and the
first index produced is outside of the range. -/
theorem C03_violated_empty_range_is_iterated (r : Range n) (hempty : ∃ i, r.hi i < r.lo i) :
    r.iterBegin ≠ r.iterEnd ∧ ¬ InBox r.lo r.hi r.iterBegin.pos ∧ ¬ r.IterLoop r.iterBegin [] := by
  have hne : r.iterBegin ≠ r.iterEnd := by
    intro h; have := congrArg RangeIter.atEnd h; simp [Range.iterEnd, Range.iterBegin] at this
  refine ⟨hne, ?_, ?_⟩
  · obtain ⟨i, hi⟩ := hempty
    intro h; have := h i; simp only [Range.iterBegin] at this; omega
  · intro h
    cases h with
    | done he => exact hne he

/-- **C03, what holds instead** Over any range, empty or not, the loop terminates and visits
exactly the indices of the box in which each upper bound below the lower bound is replaced by the
lower bound. Missing from C03: the loop over an empty range is not empty. -/
theorem C03_iterator_any_range_partial (r : Range n) :
    ∃ l, Enumerates LexLt (InBox r.lo (fun i => max (r.lo i) (r.hi i))) l ∧
      ∀ l', r.IterLoop r.iterBegin l' ↔ l' = l := by
  obtain ⟨l, h1, h2⟩ := C01_iterator_enumerates_range (Range.fill r) (fun i => le_max_left _ _)
  have h3 := iterLoop_of_fill r ((h2 l).mpr rfl) (fun i => le_rfl)
  refine ⟨l, h1, fun l' => ⟨fun h => iterLoop_unique h h3, ?_⟩⟩
  rintro rfl; exact h3

end Schnek.Props
