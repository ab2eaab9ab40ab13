import Verif.Model.Check
import Verif.Props.Storage

/-!
# C08: checking policies
-/

namespace Schnek.Props

open Schnek Schnek.Spec Schnek.Lemma Function Check

variable {n : ℕ}

private theorem debug_foldl (pos low high : Idx n) (hne : ∀ i, low i ≤ high i) :
    ∀ (l : List (Fin n)) (st : Idx n × DebugState n),
      (∀ i, (l.foldl (debugStep pos low high) st).1 i =
        if i ∈ l then max (low i) (min (st.1 i) (high i)) else st.1 i) ∧
      ((∀ i ∈ l, low i ≤ st.1 i ∧ st.1 i ≤ high i) →
        (l.foldl (debugStep pos low high) st).2 = st.2) ∧
      (¬ (∀ i ∈ l, low i ≤ st.1 i ∧ st.1 i ≤ high i) →
        (l.foldl (debugStep pos low high) st).2.errorFlag = true ∧
        (l.foldl (debugStep pos low high) st).2.offending = pos ∧
        ∃ i ∈ l, (st.1 i < low i ∧ (l.foldl (debugStep pos low high) st).2.errorInfo = -(i.1 : ℤ)) ∨
          (st.1 i > high i ∧ (l.foldl (debugStep pos low high) st).2.errorInfo = (i.1 : ℤ)))
  | [], st => by simp
  | a :: l, st => by
    have hl := hne a
    set st1 := debugStep pos low high st a with hst1
    have h1 : ∀ i, st1.1 i = if i = a then max (low a) (min (st.1 a) (high a)) else st.1 i := by
      intro i
      simp only [hst1, debugStep]
      by_cases hlo : st.1 a < low a
      · simp only [hlo, if_true, update_self]
        rw [if_neg (by omega)]
        by_cases hi : i = a
        · subst hi; simp; omega
        · simp [hi]
      · simp only [hlo, if_false]
        by_cases hhi : st.1 a > high a
        · rw [if_pos hhi]
          by_cases hi : i = a
          · subst hi; simp; omega
          · simp [hi]
        · rw [if_neg hhi]
          by_cases hi : i = a
          · subst hi; simp; omega
          · simp [hi]
    have h2 : (low a ≤ st.1 a ∧ st.1 a ≤ high a) → st1.2 = st.2 := by
      rintro ⟨h, h'⟩
      simp only [hst1, debugStep]
      have hn : ¬ st.1 a < low a := by omega
      simp only [hn, if_false]
      rw [if_neg (by omega)]
    have h3 : ¬ (low a ≤ st.1 a ∧ st.1 a ≤ high a) → st1.2.errorFlag = true ∧ st1.2.offending = pos ∧
        ((st.1 a < low a ∧ st1.2.errorInfo = -(a.1 : ℤ)) ∨ (st.1 a > high a ∧ st1.2.errorInfo = (a.1 : ℤ))) := by
      intro h
      simp only [hst1, debugStep]
      by_cases hlo : st.1 a < low a
      · simp only [hlo, if_true, update_self]
        rw [if_neg (by omega)]
        simp
      · have hhi : st.1 a > high a := by
          by_contra hc; exact h ⟨by omega, by omega⟩
        simp only [hlo, if_false]
        rw [if_pos hhi]
        simp [hhi]
    obtain ⟨i1, i2, i3⟩ := debug_foldl pos low high hne l st1
    rw [List.foldl_cons, ← hst1]
    have hin1 : low a ≤ st1.1 a ∧ st1.1 a ≤ high a := by
      rw [h1 a, if_pos rfl]; omega
    have hall : (∀ i ∈ l, low i ≤ st1.1 i ∧ st1.1 i ≤ high i) ↔
        (∀ i ∈ l, i ≠ a → low i ≤ st.1 i ∧ st.1 i ≤ high i) := by
      refine forall_congr' fun i => imp_congr_right fun _ => ?_
      by_cases hi : i = a
      · subst hi; simp [hin1]
      · rw [h1 i, if_neg hi]; simp [hi]
    refine ⟨fun i => ?_, fun h => ?_, fun h => ?_⟩
    · rw [i1 i, h1 i]
      by_cases hi : i = a
      · subst hi
        by_cases hil : i ∈ l
        · simp [hil]; omega
        · simp [hil]
      · by_cases hil : i ∈ l
        · simp [hil, hi]
        · simp [hil, hi]
    · rw [i2 (hall.mpr fun i hi _ => h i (by simp [hi])), h2 (h a (by simp))]
    · by_cases hr : ∀ i ∈ l, low i ≤ st1.1 i ∧ st1.1 i ≤ high i
      · have ha : ¬ (low a ≤ st.1 a ∧ st.1 a ≤ high a) := by
          intro hc
          apply h
          intro i hi
          by_cases hia : i = a
          · subst hia; exact hc
          · exact hall.mp hr i (by simpa [hia] using hi) hia
        rw [i2 hr]
        obtain ⟨e1, e2, e3⟩ := h3 ha
        exact ⟨e1, e2, a, by simp, e3⟩
      · obtain ⟨e1, e2, i, hi, e3⟩ := i3 hr
        refine ⟨e1, e2, i, by simp [hi], ?_⟩
        by_cases hia : i = a
        · subst hia
          exfalso
          rcases e3 with ⟨h, _⟩ | ⟨h, _⟩ <;> omega
        · rw [h1 i, if_neg hia] at e3
          exact e3

/-- **C08** `GridDebugCheck`: an index inside of the grid is returned unchanged and the error state
is not touched. -/
theorem C08_debug_inside (pos low high : Idx n) (s : DebugState n) (hin : InBox low high pos) :
    debugCheck pos low high s = (pos, s) := by
  have hne : ∀ i, low i ≤ high i := fun i => (hin i).1.trans (hin i).2
  obtain ⟨h1, h2, -⟩ := debug_foldl pos low high hne (List.finRange n) (pos, s)
  refine Prod.ext ?_ (h2 fun i _ => hin i)
  funext i
  show (debugCheck pos low high s).1 i = pos i
  rw [debugCheck, h1 i]
  have := hin i
  simp
  omega

/-- **C08** `GridDebugCheck`: for an index outside of the (non-empty) grid the result is the nearest
index of the grid, the error flag is raised, the offending index is recorded and `errorInfo` names
a dimension in which the index was too small (negative) or too large (positive). -/
theorem C08_debug_outside (pos low high : Idx n) (s : DebugState n) (hne : ∀ i, low i ≤ high i)
    (hout : ¬ InBox low high pos) :
    InBox low high (debugCheck pos low high s).1 ∧
    (∀ q, InBox low high q → ∀ i, |pos i - (debugCheck pos low high s).1 i| ≤ |pos i - q i|) ∧
    (debugCheck pos low high s).2.errorFlag = true ∧
    (debugCheck pos low high s).2.offending = pos ∧
    ∃ i, (pos i < low i ∧ (debugCheck pos low high s).2.errorInfo = -(i.1 : ℤ)) ∨
      (pos i > high i ∧ (debugCheck pos low high s).2.errorInfo = (i.1 : ℤ)) := by
  obtain ⟨h1, -, h3⟩ := debug_foldl pos low high hne (List.finRange n) (pos, s)
  simp only [List.mem_finRange, if_true, true_and, true_implies] at h1 h3
  have h1' : ∀ i, (debugCheck pos low high s).1 i = max (low i) (min (pos i) (high i)) := h1
  refine ⟨fun i => ?_, fun q hq i => ?_, h3 hout⟩
  · have := hne i
    rw [h1' i]; omega
  · have := hne i
    have := hq i
    rw [h1' i]
    rcases abs_cases (pos i - max (low i) (min (pos i) (high i))) with ⟨e1, _⟩ | ⟨e1, _⟩ <;>
      rcases abs_cases (pos i - q i) with ⟨e2, _⟩ | ⟨e2, _⟩ <;> rw [e1, e2] <;> omega

/-- **C08** `GridAssertCheck` passes the index on unchanged if it is inside and aborts otherwise. -/
theorem C08_assert (pos low high : Idx n) :
    (InBox low high pos → assertCheck pos low high = some pos) ∧
    (¬ InBox low high pos → assertCheck pos low high = none) := by
  have key : ∀ l : List (Fin n),
      ((∀ i ∈ l, low i ≤ pos i ∧ pos i ≤ high i) → l.foldlM
        (fun p i => if p i ≥ low i then (if p i ≤ high i then some p else none) else none) pos = some pos) ∧
      (¬ (∀ i ∈ l, low i ≤ pos i ∧ pos i ≤ high i) → l.foldlM
        (fun p i => if p i ≥ low i then (if p i ≤ high i then some p else none) else none) pos = none) := by
    intro l
    induction l with
    | nil => simp
    | cons a l ih =>
      rw [List.foldlM_cons]
      by_cases h1 : pos a ≥ low a
      · by_cases h2 : pos a ≤ high a
        · simp only [h1, h2, if_true, Option.bind_eq_bind, Option.bind_some]
          refine ⟨fun h => ih.1 fun i hi => h i (by simp [hi]), fun h => ih.2 fun hc => h ?_⟩
          intro i hi
          rcases List.mem_cons.mp hi with rfl | hi
          · exact ⟨h1, h2⟩
          · exact hc i hi
        · simp only [h1, h2, if_true, if_false, Option.bind_eq_bind, Option.bind_none]
          exact ⟨fun h => absurd (h a (by simp)).2 h2, fun _ => trivial⟩
      · simp only [h1, if_false, Option.bind_eq_bind, Option.bind_none]
        exact ⟨fun h => absurd (h a (by simp)).1 h1, fun _ => trivial⟩
  have := key (List.finRange n)
  simpa [InBox, assertCheck] using this

/-- **C08** no access through a checked grid leaves the buffer: with the debug check every index,
with the assert check every index that is passed on. -/
theorem C08_checked_access_in_buffer {T : Type} (g : Grid T n) (hg : Usable g)
    (s : DebugState (n + 1)) (pos : Idx (n + 1)) :
    (∃ v, g.get? (debugCheck pos g.range.lo g.range.hi s).1 = some v) ∧
    ∀ p, assertCheck pos g.range.lo g.range.hi = some p → ∃ v, g.get? p = some v := by
  constructor
  · apply C07_read_defined g hg
    by_cases hin : InBox g.range.lo g.range.hi pos
    · rw [C08_debug_inside _ _ _ _ hin]; exact hin
    · exact (C08_debug_outside _ _ _ _ hg.nonempty hin).1
  · intro p hp
    apply C07_read_defined g hg
    by_cases hin : InBox g.range.lo g.range.hi pos
    · rw [(C08_assert _ _ _).1 hin] at hp
      cases hp; exact hin
    · rw [(C08_assert _ _ _).2 hin] at hp; cases hp

/-- non-vacuity: an index outside in two dimensions -/
example : ¬ InBox (![0, 0] : Idx 2) ![3, 3] ![-2, 7] ∧
    (debugCheck (![-2, 7] : Idx 2) ![0, 0] ![3, 3] ⟨false, 0, ![0, 0]⟩).1 = ![0, 3] ∧
    (debugCheck (![-2, 7] : Idx 2) ![0, 0] ![3, 3] ⟨false, 0, ![0, 0]⟩).2.errorInfo = 1 := by
  refine ⟨fun h => ?_, by decide, by decide⟩
  have := h 0
  simp at this

end Schnek.Props
