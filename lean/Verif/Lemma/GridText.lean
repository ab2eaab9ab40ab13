import Verif.Model.GridText
import Verif.Spec.GridText
import Verif.Spec.Array
import Verif.Spec.Range
import Verif.Lemma.NumberText

/-!
# Lemmas on the text of grids
-/

namespace Schnek.Lemma.GridText

open Schnek.Arrays Schnek.NumberText Schnek.Diagnostic Schnek.Binary64 Schnek.GridText Spec.NumberText Lemma.NumberText Lemma.Binary64 Lemma.Diag

theorem significant6_spec {a : ℚ} (h0 : 0 < a) : 10 ^ 5 ≤ (significant6 a).1 ∧ (significant6 a).1 < 10 ^ 6 ∧
    |((significant6 a).1 : ℚ) * 10 ^ ((significant6 a).2 - 5) - a| ≤ a / 10 ^ 5 / 2 := by
  have h10 : (0 : ℚ) < 10 ^ (Int.log 10 a - 5) := zpow_pos (by norm_num) _
  have hlo : (10 : ℚ) ^ Int.log 10 a ≤ a := by
    have := Int.zpow_log_le_self (b := 10) (by norm_num) h0; exact_mod_cast this
  have hhi : a < (10 : ℚ) ^ (Int.log 10 a + 1) := by
    have := Int.lt_zpow_succ_log_self (b := 10) (by norm_num) a; exact_mod_cast this
  have he1 : (10 : ℚ) ^ Int.log 10 a = 10 ^ 5 * 10 ^ (Int.log 10 a - 5) := by
    rw [zpow_sub₀ (by norm_num)]; norm_num; ring
  have he2 : (10 : ℚ) ^ (Int.log 10 a + 1) = 10 ^ 6 * 10 ^ (Int.log 10 a - 5) := by
    rw [zpow_sub₀ (by norm_num), zpow_add₀ (by norm_num)]; norm_num; ring
  have hq1 : 10 ^ 5 ≤ a / 10 ^ (Int.log 10 a - 5) := by rw [le_div_iff₀ h10, ← he1]; exact hlo
  have hq2 : a / 10 ^ (Int.log 10 a - 5) < 10 ^ 6 := by rw [div_lt_iff₀ h10, ← he2]; exact hhi
  have hr := roundInt_half (a / 10 ^ (Int.log 10 a - 5))
  rw [abs_le] at hr
  have hm1 : (10 ^ 5 : ℤ) ≤ roundInt (a / 10 ^ (Int.log 10 a - 5)) := by
    have : ((10 ^ 5 - 1 : ℤ) : ℚ) < roundInt (a / 10 ^ (Int.log 10 a - 5)) := by push_cast; linarith
    have := Int.cast_lt.mp this
    omega
  have hm2 : roundInt (a / 10 ^ (Int.log 10 a - 5)) ≤ 10 ^ 6 := by
    have : (roundInt (a / 10 ^ (Int.log 10 a - 5)) : ℚ) < ((10 ^ 6 + 1 : ℤ) : ℚ) := by push_cast; linarith
    have := Int.cast_lt.mp this
    omega
  have hnat : ((roundInt (a / 10 ^ (Int.log 10 a - 5))).toNat : ℚ) = roundInt (a / 10 ^ (Int.log 10 a - 5)) := by
    have : (((roundInt (a / 10 ^ (Int.log 10 a - 5))).toNat : ℤ) : ℚ) = roundInt (a / 10 ^ (Int.log 10 a - 5)) := by
      rw [Int.toNat_of_nonneg (by omega)]
    exact_mod_cast this
  have hclose : |((roundInt (a / 10 ^ (Int.log 10 a - 5))).toNat : ℚ) * 10 ^ (Int.log 10 a - 5) - a| ≤ a / 10 ^ 5 / 2 := by
    rw [hnat]
    have h1 : (roundInt (a / 10 ^ (Int.log 10 a - 5)) : ℚ) * 10 ^ (Int.log 10 a - 5) - a =
        (roundInt (a / 10 ^ (Int.log 10 a - 5)) - a / 10 ^ (Int.log 10 a - 5)) * 10 ^ (Int.log 10 a - 5) := by
      field_simp
    have h2 := roundInt_half (a / 10 ^ (Int.log 10 a - 5))
    rw [h1, abs_mul, abs_of_pos h10]
    have h3 : (10 : ℚ) ^ (Int.log 10 a - 5) ≤ a / 10 ^ 5 := by rw [le_div_iff₀ (by norm_num)]; linarith
    nlinarith
  unfold significant6
  simp only
  by_cases hc : (roundInt (a / 10 ^ (Int.log 10 a - 5))).toNat = 10 ^ 6
  · rw [if_pos hc]
    refine ⟨le_refl _, by norm_num, ?_⟩
    rw [hc] at hclose
    have : ((10 ^ 5 : ℕ) : ℚ) * 10 ^ (Int.log 10 a + 1 - 5) = ((10 ^ 6 : ℕ) : ℚ) * 10 ^ (Int.log 10 a - 5) := by
      rw [show Int.log 10 a + 1 - 5 = (Int.log 10 a - 5) + 1 by ring, zpow_add₀ (by norm_num)]
      push_cast; ring
    show |((10 ^ 5 : ℕ) : ℚ) * 10 ^ (Int.log 10 a + 1 - 5) - a| ≤ _
    rw [this]; exact hclose
  · rw [if_neg hc]
    refine ⟨by omega, by omega, hclose⟩

theorem showPos6_text {t : List Char} {k : ℤ} (ht : Sign t k) {a : ℚ} (h0 : 0 < a) :
    FloatText (t ++ showPos6 a) (k * (((significant6 a).1 : ℚ) * 10 ^ ((significant6 a).2 - 5))) := by
  obtain ⟨h1, h2, -⟩ := significant6_spec h0
  unfold showPos6
  rcases hs : significant6 a with ⟨m, e⟩
  rw [hs] at h1 h2
  simp only at h1 h2 ⊢
  have hlen : (decimalNat m).length = 6 := length_decimalNat (k := 5) h1 h2
  have hdig := decimalNat_digit m
  have htk : ∀ j, ∀ c ∈ (decimalNat m).take j, c.isDigit = true := fun j c hc => hdig c (List.mem_of_mem_take hc)
  have hdr : ∀ j, ∀ c ∈ (decimalNat m).drop j, c.isDigit = true := fun j c hc => hdig c (List.mem_of_mem_drop hc)
  have hne : ∀ j, (decimalNat m).take (j + 1) ≠ [] := by
    intro j h
    have := congrArg List.length h
    rw [List.length_take, hlen] at this
    simp at this
  have hten : (10 : ℚ) ≠ 0 := by norm_num
  by_cases hc : e < -4 ∨ 6 ≤ e
  · rw [if_pos hc]
    have := floatText_of ht (hne 0) (htk 1) (hdr 1) (exponent_exponentText e)
    rw [List.take_append_drop, value_decimalNat, List.length_drop, hlen] at this
    rw [show t ++ ((decimalNat m).take 1 ++ fraction ((decimalNat m).drop 1) ++ exponentText e) =
      t ++ (decimalNat m).take 1 ++ fraction ((decimalNat m).drop 1) ++ exponentText e by simp]
    convert this using 1
    rw [zpow_sub₀ hten]
    norm_num
    ring
  rw [if_neg hc]
  rw [not_or] at hc
  by_cases hn : e < 0
  · rw [if_pos hn]
    have hd : ∀ c ∈ List.replicate (-e - 1).toNat '0' ++ decimalNat m, c.isDigit = true := by
      intro c hc
      rcases List.mem_append.mp hc with hc | hc
      · rw [List.eq_of_mem_replicate hc]; decide
      · exact hdig c hc
    have := floatText_of ht (i := ['0']) (by simp) (by simp) hd .none
    have hv : value (['0'] ++ (List.replicate (-e - 1).toNat '0' ++ decimalNat m)) = m := by
      rw [value_append, value_append, value_zeros, value_decimalNat]
      simp [value]
    rw [hv, List.length_append, List.length_replicate, hlen] at this
    rw [show t ++ '0' :: fraction (List.replicate (-e - 1).toNat '0' ++ decimalNat m) =
      t ++ ['0'] ++ fraction (List.replicate (-e - 1).toNat '0' ++ decimalNat m) ++ [] by simp]
    convert this using 1
    have : e - 5 = -(((-e - 1).toNat + 6 : ℕ) : ℤ) := by omega
    rw [this, zpow_neg, zpow_natCast]
    simp only [zpow_zero, mul_one]
    rfl
  · rw [if_neg hn]
    have := floatText_of ht (hne e.toNat) (htk (e.toNat + 1)) (hdr (e.toNat + 1)) .none
    rw [List.take_append_drop, value_decimalNat, List.length_drop, hlen] at this
    rw [show t ++ ((decimalNat m).take (e.toNat + 1) ++ fraction ((decimalNat m).drop (e.toNat + 1))) =
      t ++ (decimalNat m).take (e.toNat + 1) ++ fraction ((decimalNat m).drop (e.toNat + 1)) ++ [] by simp]
    convert this using 1
    have : e - 5 = -((6 - (e.toNat + 1) : ℕ) : ℤ) := by omega
    rw [this, zpow_neg, zpow_natCast]
    simp only [zpow_zero, mul_one]
    rfl

/-! ## words -/

section

open Spec.GridText

theorem words_nil : words [] = [] := rfl

theorem words_space {c : Char} (h : c.isWhitespace = true) (s : List Char) : words (c :: s) = words s := by
  unfold words
  rw [List.splitOnP_cons_eq_if_modifyHead, if_pos h]
  simp

theorem words_spaces {s : List Char} (h : ∀ c ∈ s, c.isWhitespace = true) (t : List Char) : words (s ++ t) = words t := by
  induction s with
  | nil => rfl
  | cons c s ih =>
    rw [List.cons_append, words_space (h c (by simp)), ih fun d hd => h d (by simp [hd])]

theorem split_word {w : List Char} (h : ∀ c ∈ w, c.isWhitespace = false) (s : List Char) :
    (w ++ s).splitOnP Char.isWhitespace = (s.splitOnP Char.isWhitespace).modifyHead (w ++ ·) := by
  induction w with
  | nil =>
    rw [List.nil_append]
    cases s.splitOnP Char.isWhitespace <;> simp
  | cons c w ih =>
    rw [List.cons_append, List.splitOnP_cons_eq_if_modifyHead, if_neg (by simp [h c (by simp)]), ih fun d hd => h d (by simp [hd])]
    cases s.splitOnP Char.isWhitespace <;> simp

theorem words_word {w s t : List Char} (hw : IsWord w) (hs : ∀ c ∈ s, c.isWhitespace = true) (h : s ≠ [] ∨ t = []) :
    words (w ++ s ++ t) = w :: words t := by
  cases s with
  | nil =>
    obtain rfl : t = [] := by simpa using h
    rw [List.append_nil]
    unfold words
    rw [split_word hw.2]
    simp [hw.1]
  | cons c s =>
    have hc := hs c (by simp)
    have e : words (w ++ (c :: s ++ t)) = w :: words (s ++ t) := by
      conv_lhs => unfold words
      rw [split_word hw.2, List.cons_append, List.splitOnP_cons_eq_if_modifyHead, if_pos hc]
      simp [hw.1, words]
    rw [List.append_assoc, e, words_spaces fun d hd => hs d (by simp [hd])]

theorem words_items {α : Type} (f s : α → List Char) (t : List Char) : ∀ (l : List α), (∀ p ∈ l, IsWord (f p)) →
    (∀ p ∈ l, ∀ c ∈ s p, c.isWhitespace = true) → l.Pairwise (fun p _ => s p ≠ []) → ((∀ p ∈ l, s p ≠ []) ∨ t = []) →
    words (l.flatMap (fun p => f p ++ s p) ++ t) = l.map f ++ words t
  | [], _, _, _, _ => rfl
  | p :: l, hf, hs, hp, ht => by
    rw [List.flatMap_cons, List.append_assoc, words_word (hf p (by simp)) (hs p (by simp)), words_items f s t l
      (fun q hq => hf q (by simp [hq])) (fun q hq => hs q (by simp [hq])) (List.pairwise_cons.mp hp).2]
    · simp
    · rcases ht with ht | ht
      · exact .inl fun q hq => ht q (by simp [hq])
      · exact .inr ht
    · rcases ht with ht | ht
      · exact .inl (ht p (by simp))
      · subst ht
        cases l with
        | nil => exact .inr rfl
        | cons q l => exact .inl ((List.pairwise_cons.mp hp).1 q (by simp))

theorem digit_word {c : Char} {d : ℕ} (h : IsDigitOf c d) : c.isWhitespace = false := by
  obtain ⟨-, h⟩ := h
  by_contra hc
  simp only [Char.isWhitespace, Bool.not_eq_false, Bool.or_eq_true, decide_eq_true_eq] at hc
  have h0 : '0'.toNat = 48 := rfl
  rw [h0] at h
  have h' : c.toNat ≠ 32 ∧ c.toNat ≠ 9 ∧ c.toNat ≠ 13 ∧ c.toNat ≠ 10 := by omega
  rcases hc with ((rfl | rfl) | rfl) | rfl <;> revert h' <;> decide

theorem digits_word {l : List Char} {n : ℕ} (h : Digits l n) : ∀ c ∈ l, c.isWhitespace = false := by
  induction h with
  | nil => simp
  | snoc _ hd ih =>
    intro c hc
    rcases List.mem_append.mp hc with hc | hc
    · exact ih c hc
    · rw [List.mem_singleton.mp hc]; exact digit_word hd

theorem sign_word {t : List Char} {k : ℤ} (h : Sign t k) : ∀ c ∈ t, c.isWhitespace = false := by
  cases h <;> simp

theorem intText_word {s : List Char} {i : ℤ} (h : IntText s i) : IsWord s := by
  obtain ⟨t, k, l, n, rfl, ht, hl, hn, -⟩ := h
  refine ⟨by simp [hl], fun c hc => ?_⟩
  rcases List.mem_append.mp hc with hc | hc
  · exact sign_word ht c hc
  · exact digits_word hn c hc

theorem floatText_word {s : List Char} {v : ℚ} (h : FloatText s v) : IsWord s := by
  obtain ⟨t, k, i, p, f, n, x, e, rfl, ht, hp, hif, hn, hx, -⟩ := h
  have hd := digits_word hn
  constructor
  · intro h0
    simp only [List.append_eq_nil_iff] at h0
    obtain ⟨⟨⟨-, rfl⟩, rfl⟩, -⟩ := h0
    cases hp
    exact hif rfl
  · intro c hc
    simp only [List.mem_append] at hc hd
    rcases hc with ((hc | hc) | hc) | hc
    · exact sign_word ht c hc
    · exact hd c (.inl hc)
    · cases hp with
      | none => cases hc
      | point =>
        rcases List.mem_cons.mp hc with rfl | hc
        · decide
        · exact hd c (.inr hc)
    · cases hx with
      | none => cases hc
      | exp he hl =>
        rcases List.mem_cons.mp hc with rfl | hc
        · rcases he with rfl | rfl <;> decide
        · exact (intText_word hl).2 c hc

theorem double6_text (x : ℚ) : ∃ v, FloatText (double6 x) v ∧ |v - x| ≤ |x| / 200000 := by
  unfold double6
  by_cases h0 : x = 0
  · subst h0
    rw [if_pos rfl]
    exact ⟨0, ⟨[], 1, ['0'], [], [], 0, [], 0, rfl, .none, .none, by simp, digits_iff.mpr ⟨by decide, by decide⟩, .none, by norm_num⟩, by simp⟩
  rw [if_neg h0]
  by_cases hn : x < 0
  · rw [if_pos hn]
    have hpos : 0 < -x := by linarith
    refine ⟨_, showPos6_text .minus hpos, ?_⟩
    obtain ⟨-, -, hc⟩ := significant6_spec hpos
    generalize ((significant6 (-x)).1 : ℚ) * 10 ^ ((significant6 (-x)).2 - 5) = v at hc ⊢
    rw [abs_of_neg hn]
    have : |((-1 : ℤ) : ℚ) * v - x| = |v - -x| := by rw [← abs_neg]; congr 1; push_cast; ring
    rw [this]
    linarith
  · rw [if_neg hn]
    have hpos : 0 < x := lt_of_le_of_ne (not_lt.mp hn) (Ne.symm h0)
    refine ⟨_, showPos6_text .none hpos, ?_⟩
    obtain ⟨-, -, hc⟩ := significant6_spec hpos
    rw [Int.cast_one, one_mul, abs_of_pos hpos]
    linarith

end

end Schnek.Lemma.GridText
