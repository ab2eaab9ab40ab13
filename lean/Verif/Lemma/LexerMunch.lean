import Verif.Lemma.Lexer
import Mathlib.Data.List.Pairwise
import Mathlib.Data.List.Induction

/-! The longest match in terms of what is left of the patterns. -/

namespace Schnek.Lemma.Lexer

open Schnek.Scanner (Byte)
open Schnek.Spec.Lexer

/-- What is left of the patterns after the characters `w`. -/
def vecOf (w : List Byte) : Vec := w.foldl (fun v b => strip (dv b v)) allPatterns

theorem vecOf_append (w : List Byte) (b : Byte) : vecOf (w ++ [b]) = strip (dv b (vecOf w)) := by
  simp [vecOf, List.foldl_append]

theorem mem_dv {b : Byte} {v : Vec} {i : ℕ} {r : RE} :
    (i, r) ∈ dv b v ↔ r ≠ .empty ∧ ∃ r₀, (i, r₀) ∈ v ∧ deriv b r₀ = r := by
  unfold dv
  rw [List.mem_filterMap]
  constructor
  · rintro ⟨⟨j, r₀⟩, hm, h⟩
    dsimp only at h
    split at h
    · cases h
    · rename_i hne
      simp only [Option.some.injEq, Prod.mk.injEq] at h
      obtain ⟨rfl, rfl⟩ := h
      exact ⟨hne, r₀, hm, rfl⟩
  · rintro ⟨hne, r₀, hm, rfl⟩
    refine ⟨(i, r₀), hm, ?_⟩
    dsimp only
    split
    · rename_i h; exact absurd h hne
    · rfl

theorem mem_strip {v : Vec} {i : ℕ} {r : RE} : (i, r) ∈ strip v ↔ (i, r) ∈ v ∧ r ≠ .eps := by
  unfold strip
  rw [List.mem_filter]
  constructor
  · rintro ⟨h, h'⟩
    refine ⟨h, ?_⟩
    rintro rfl
    simp at h'
  · rintro ⟨h, h'⟩
    refine ⟨h, ?_⟩
    dsimp only
    split
    · exact absurd rfl h'
    · rfl

theorem mem_allPatterns {i : ℕ} {r : RE} : (i, r) ∈ allPatterns ↔ ∃ u, patterns[i]? = some (r, u) := by
  unfold allPatterns
  rw [List.mem_map]
  constructor
  · rintro ⟨⟨⟨r', u⟩, j⟩, hm, h⟩
    simp only [Prod.mk.injEq] at h
    obtain ⟨rfl, rfl⟩ := h
    exact ⟨u, List.mem_zipIdx_iff_getElem?.1 hm⟩
  · rintro ⟨u, hu⟩
    exact ⟨((r, u), i), List.mem_zipIdx_iff_getElem?.2 hu, rfl⟩

/-- A longer match is a match of what is left. -/
theorem patMatches_append (w : List Byte) : ∀ (i : ℕ) (z : List Byte), z ≠ [] →
    (PatMatches i (w ++ z) ↔ ∃ r, (i, r) ∈ vecOf w ∧ Matches r z) := by
  induction w using List.reverseRecOn with
  | nil =>
    intro i z _
    simp only [List.nil_append, PatMatches, vecOf, List.foldl_nil, mem_allPatterns]
    constructor
    · rintro ⟨r, u, h, hm⟩; exact ⟨r, ⟨u, h⟩, hm⟩
    · rintro ⟨r, ⟨u, h⟩, hm⟩; exact ⟨r, u, h, hm⟩
  | append_singleton w b ih =>
    intro i z hz
    rw [List.append_assoc, List.singleton_append, ih i (b :: z) (by simp), vecOf_append]
    constructor
    · rintro ⟨r, hr, hm⟩
      have hd := (matches_deriv b r z).2 hm
      refine ⟨deriv b r, mem_strip.2 ⟨mem_dv.2 ⟨?_, r, hr, rfl⟩, ?_⟩, hd⟩
      · intro h; rw [h] at hd; exact matches_empty hd
      · intro h; rw [h] at hd; exact hz (matches_eps.1 hd)
    · rintro ⟨r, hr, hm⟩
      obtain ⟨hr, _⟩ := mem_strip.1 hr
      obtain ⟨_, r₀, h₀, rfl⟩ := mem_dv.1 hr
      exact ⟨r₀, h₀, (matches_deriv b r₀ z).1 hm⟩

theorem patMatches_snoc (w : List Byte) (b : Byte) (i : ℕ) :
    PatMatches i (w ++ [b]) ↔ ∃ r, (i, r) ∈ dv b (vecOf w) ∧ nullable r = true := by
  rw [patMatches_append w i [b] (by simp)]
  constructor
  · rintro ⟨r, hr, hm⟩
    have hd := (matches_deriv b r []).2 hm
    refine ⟨deriv b r, mem_dv.2 ⟨?_, r, hr, rfl⟩, (nullable_iff _).2 hd⟩
    intro h; rw [h] at hd; exact matches_empty hd
  · rintro ⟨r, hr, hn⟩
    obtain ⟨_, r₀, h₀, rfl⟩ := mem_dv.1 hr
    exact ⟨r₀, h₀, (matches_deriv b r₀ []).1 ((nullable_iff _).1 hn)⟩

def Sorted (v : Vec) : Prop := v.Pairwise fun x y => x.1 < y.1

theorem sorted_dv (b : Byte) {v : Vec} (h : Sorted v) : Sorted (dv b v) := by
  unfold Sorted dv
  rw [List.pairwise_filterMap]
  refine h.imp ?_
  rintro ⟨i, r⟩ ⟨j, s⟩ hij x hx y hy
  dsimp only at hx hy hij
  split at hx
  · cases hx
  · split at hy
    · cases hy
    · simp only [Option.some.injEq] at hx hy
      subst hx; subst hy; exact hij

theorem sorted_vecOf (w : List Byte) : Sorted (vecOf w) := by
  induction w using List.reverseRecOn with
  | nil => show allPatterns.Pairwise _; decide
  | append_singleton w b ih =>
    rw [vecOf_append]
    exact (sorted_dv b ih).sublist List.filter_sublist

theorem firstNull_some {v : Vec} (hv : Sorted v) {i : ℕ} (h : firstNull v = some i) :
    (∃ r, (i, r) ∈ v ∧ nullable r = true) ∧ ∀ j r, (j, r) ∈ v → nullable r = true → i ≤ j := by
  induction v with
  | nil => simp [firstNull] at h
  | cons x v ih =>
    have hv' := List.pairwise_cons.1 hv
    by_cases hx : nullable x.2 = true
    · simp only [firstNull, List.find?_cons, hx, Option.map_some, Option.some.injEq] at h
      subst h
      refine ⟨⟨x.2, by simp, hx⟩, ?_⟩
      intro j r hj _
      rcases List.mem_cons.1 hj with rfl | hj
      · exact le_refl _
      · exact le_of_lt (hv'.1 _ hj)
    · have : firstNull v = some i := by
        simpa [firstNull, List.find?_cons, hx] using h
      obtain ⟨⟨r, hr, hn⟩, hmin⟩ := ih hv'.2 this
      refine ⟨⟨r, List.mem_cons_of_mem _ hr, hn⟩, ?_⟩
      intro j r hj hn
      rcases List.mem_cons.1 hj with rfl | hj
      · exact absurd hn hx
      · exact hmin j r hj hn

theorem firstNull_none {v : Vec} (h : firstNull v = none) : ∀ j r, (j, r) ∈ v → nullable r ≠ true := by
  intro j r hj
  simp only [firstNull, Option.map_eq_none_iff, List.find?_eq_none] at h
  exact h (j, r) hj

theorem not_patMatches_nil (i : ℕ) : ¬ PatMatches i [] := by
  rintro ⟨r, u, h, hm⟩
  have hn := (nullable_iff r).2 hm
  have hall : ∀ x ∈ patterns, nullable x.1 = false := by decide
  have := hall (r, u) (List.mem_of_getElem? h)
  simp [hn] at this

/-- The longest match among the first `n` characters of `s`. -/
def IsBest (s : List Byte) (n : ℕ) : Option (ℕ × ℕ) → Prop
  | none => ∀ j k, k ≤ n → ¬ PatMatches j (s.take k)
  | some (i, l) => l ≤ n ∧ PatMatches i (s.take l) ∧ (∀ j k, k ≤ n → PatMatches j (s.take k) → k ≤ l) ∧
      ∀ j, PatMatches j (s.take l) → i ≤ j

theorem isBest_zero (s : List Byte) : IsBest s 0 none := by
  intro j k hk
  obtain rfl : k = 0 := by omega
  simpa using not_patMatches_nil j

theorem isBest_hit {s : List Byte} {n : ℕ} {b : Byte} {i : ℕ} (hs : s[n]? = some b)
    (h : firstNull (dv b (vecOf (s.take n))) = some i) : IsBest s (n + 1) (some (i, n + 1)) := by
  have htake : s.take (n + 1) = s.take n ++ [b] := by rw [List.take_add_one, hs]; rfl
  obtain ⟨⟨r, hr, hn⟩, hmin⟩ := firstNull_some (sorted_dv b (sorted_vecOf _)) h
  refine ⟨le_refl _, ?_, fun _ _ hk _ => hk, ?_⟩
  · rw [htake]; exact (patMatches_snoc _ _ _).2 ⟨r, hr, hn⟩
  · intro j hj
    rw [htake] at hj
    obtain ⟨r', hr', hn'⟩ := (patMatches_snoc _ _ _).1 hj
    exact hmin j r' hr' hn'

theorem isBest_miss {s : List Byte} {n : ℕ} {b : Byte} {best : Option (ℕ × ℕ)} (hs : s[n]? = some b)
    (h : firstNull (dv b (vecOf (s.take n))) = none) (hb : IsBest s n best) : IsBest s (n + 1) best := by
  have htake : s.take (n + 1) = s.take n ++ [b] := by rw [List.take_add_one, hs]; rfl
  have hno : ∀ j, ¬ PatMatches j (s.take (n + 1)) := by
    intro j hj
    rw [htake] at hj
    obtain ⟨r', hr', hn'⟩ := (patMatches_snoc _ _ _).1 hj
    exact firstNull_none h j r' hr' hn'
  match best, hb with
  | none, hb =>
    intro j k hk
    rcases Nat.lt_or_ge k (n + 1) with h' | h'
    · exact hb j k (by omega)
    · obtain rfl : k = n + 1 := by omega
      exact hno j
  | some (i, l), ⟨h1, h2, h3, h4⟩ =>
    refine ⟨by omega, h2, ?_, h4⟩
    intro j k hk hm
    rcases Nat.lt_or_ge k (n + 1) with h' | h'
    · exact h3 j k (by omega) hm
    · obtain rfl : k = n + 1 := by omega
      exact absurd hm (hno j)

/-- Nothing is left, so nothing longer matches. -/
theorem no_longer {w s : List Byte} {n : ℕ} (hw : vecOf w = []) (hs : s.take n = w) {j k : ℕ} (hk : n < k) (hks : k ≤ s.length) :
    ¬ PatMatches j (s.take k) := by
  intro h
  have hsplit : s.take k = s.take n ++ (s.drop n).take (k - n) := by
    rw [← List.take_add]; congr 1; omega
  rw [hsplit, hs] at h
  obtain ⟨r, hr, _⟩ := (patMatches_append w j _ (by
    intro h0
    have := congrArg List.length h0
    simp only [List.length_take, List.length_drop, List.length_nil] at this
    omega)).1 h
  rw [hw] at hr
  simp at hr

theorem longest_of_best {s : List Byte} {n i l : ℕ} (hn : n ≤ s.length) (hb : IsBest s n (some (i, l)))
    (hmore : ∀ j k, n < k → k ≤ s.length → ¬ PatMatches j (s.take k)) : Longest s i l := by
  obtain ⟨h1, h2, h3, h4⟩ := hb
  refine ⟨by omega, h2, ?_, h4⟩
  intro j k hk hm
  rcases Nat.lt_or_ge n k with h | h
  · exact absurd hm (hmore j k h hk)
  · exact h3 j k h hm

theorem none_of_best {s : List Byte} {n : ℕ} (hb : IsBest s n none)
    (hmore : ∀ j k, n < k → k ≤ s.length → ¬ PatMatches j (s.take k)) : ∀ i k, k ≤ s.length → ¬ PatMatches i (s.take k) := by
  intro j k hk
  rcases Nat.lt_or_ge n k with h | h
  · exact hmore j k h hk
  · exact hb j k h

theorem not_extendable {w : List Byte} (h : vecOf w = []) : ¬ Extendable w := by
  rintro ⟨i, z, hz, hm⟩
  obtain ⟨r, hr, _⟩ := (patMatches_append w i z hz).1 hm
  rw [h] at hr
  simp at hr

theorem matches_foldl (z : List Byte) : ∀ r : RE, nullable (z.foldl (fun r b => deriv b r) r) = true ↔ Matches r z := by
  induction z with
  | nil => intro r; exact nullable_iff r
  | cons b z ih => intro r; rw [List.foldl_cons, ih, matches_deriv]

theorem longest_unique {s : List Byte} {i n i' n' : ℕ} (h : Longest s i n) (h' : Longest s i' n') : i = i' ∧ n = n' := by
  have hn : n = n' := le_antisymm (h'.longest _ _ h.inside h.here) (h.longest _ _ h'.inside h'.here)
  subst hn
  exact ⟨le_antisymm (h.first _ h'.here) (h'.first _ h.here), rfl⟩

theorem longest_pos {s : List Byte} {i n : ℕ} (h : Longest s i n) : 0 < n := by
  rcases Nat.eq_zero_or_pos n with h0 | h0
  · subst h0
    exact absurd (by simpa using h.here) (not_patMatches_nil i)
  · exact h0

end Schnek.Lemma.Lexer
