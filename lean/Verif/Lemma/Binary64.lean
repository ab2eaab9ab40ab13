import Verif.Model.Binary64
import Mathlib.Tactic.Linarith
import Mathlib.Tactic.Ring
import Mathlib.Tactic.NormNum
import Mathlib.Tactic.Push
import Mathlib.Tactic.FieldSimp
import Mathlib.Tactic.Positivity

/-!
# Lemmas about `double`
-/

namespace Schnek.Lemma.Binary64

open Schnek.Binary64

theorem two_pos (e : ℤ) : (0 : ℚ) < 2 ^ e := zpow_pos (by norm_num) e

theorem roundInt_near (x : ℚ) (k : ℤ) : |(roundInt x : ℚ) - x| ≤ |(k : ℚ) - x| := by
  have h0 := Int.floor_le x
  have h1 := Int.lt_floor_add_one x
  have hk : (k : ℚ) ≤ ⌊x⌋ ∨ ((⌊x⌋ : ℤ) : ℚ) + 1 ≤ k := by
    rcases le_or_gt k ⌊x⌋ with h | h
    · exact Or.inl (by exact_mod_cast h)
    · exact Or.inr (by exact_mod_cast h)
  unfold roundInt
  split_ifs with h2 h3 h4 <;> push_cast <;>
    rcases hk with hk | hk <;> rw [abs_le] <;> constructor <;>
    rcases abs_cases ((k : ℚ) - x) with ⟨e, f⟩ | ⟨e, f⟩ <;> rw [e] <;> linarith

theorem roundInt_half (x : ℚ) : |(roundInt x : ℚ) - x| ≤ 1 / 2 := by
  have h0 := Int.floor_le x
  have h1 := Int.lt_floor_add_one x
  unfold roundInt
  split_ifs with h2 h3 h4 <;> push_cast <;> rw [abs_le] <;> constructor <;> linarith

/-- ties go to the even neighbour -/
theorem roundInt_tie (x : ℚ) (k : ℤ) (hk : k ≠ roundInt x) (h : |(k : ℚ) - x| = |(roundInt x : ℚ) - x|) : roundInt x % 2 = 0 := by
  have h0 := Int.floor_le x
  have h1 := Int.lt_floor_add_one x
  have hk' : (k : ℚ) ≤ ⌊x⌋ ∨ ((⌊x⌋ : ℤ) : ℚ) + 1 ≤ k := by
    rcases le_or_gt k ⌊x⌋ with h | h
    · exact Or.inl (by exact_mod_cast h)
    · exact Or.inr (by exact_mod_cast h)
  unfold roundInt at hk h ⊢
  by_cases h2 : x - ⌊x⌋ < 1 / 2
  · rw [if_pos h2] at hk h
    exfalso
    rw [abs_of_nonpos (a := ((⌊x⌋ : ℤ) : ℚ) - x) (by linarith)] at h
    rcases hk' with hk' | hk'
    · rw [abs_of_nonpos (by linarith)] at h
      exact hk (by exact_mod_cast (by linarith : (k : ℚ) = ⌊x⌋))
    · rw [abs_of_nonneg (by linarith)] at h
      linarith
  · rw [if_neg h2] at hk h ⊢
    by_cases h3 : 1 / 2 < x - ⌊x⌋
    · rw [if_pos h3] at hk h
      exfalso
      push_cast at h
      rw [abs_of_nonneg (a := ((⌊x⌋ : ℤ) : ℚ) + 1 - x) (by linarith)] at h
      rcases hk' with hk' | hk'
      · rw [abs_of_nonpos (by linarith)] at h
        linarith
      · rw [abs_of_nonneg (by linarith)] at h
        exact hk (by exact_mod_cast (by linarith : (k : ℚ) = ⌊x⌋ + 1))
    · rw [if_neg h3]
      by_cases h4 : ⌊x⌋ % 2 = 0
      · rw [if_pos h4]; exact h4
      · rw [if_neg h4]; omega

theorem log_le {x : ℚ} (h : x ≠ 0) : (2 : ℚ) ^ Int.log 2 |x| ≤ |x| := by
  have := Int.zpow_log_le_self (b := 2) (by norm_num) (abs_pos.mpr h)
  exact_mod_cast this

theorem lt_log (x : ℚ) : |x| < (2 : ℚ) ^ (Int.log 2 |x| + 1) := by
  have := Int.lt_zpow_succ_log_self (b := 2) (by norm_num) |x|
  exact_mod_cast this

theorem lt_spacing (x : ℚ) : |x| < 2 ^ 53 * (2 : ℚ) ^ spacing x := by
  have h := lt_log x
  have : (2 : ℚ) ^ (Int.log 2 |x| + 1) ≤ 2 ^ (53 + spacing x) :=
    zpow_le_zpow_right₀ (by norm_num) (by have := le_max_left (Int.log 2 |x| - 52) (-1074); unfold spacing; omega)
  rw [zpow_add₀ (by norm_num) 53] at this
  exact h.trans_le this

/-- `x` is large enough that the spacing is determined by it -/
theorem spacing_le {x : ℚ} (h : x ≠ 0) (hs : spacing x ≠ -1074) : 2 ^ 52 * (2 : ℚ) ^ spacing x ≤ |x| := by
  have h1 : spacing x = Int.log 2 |x| - 52 := by
    unfold spacing at hs ⊢
    rcases max_choice (Int.log 2 |x| - 52) (-1074) with h | h
    · exact h
    · exact absurd h hs
  have h2 := log_le h
  calc (2 : ℚ) ^ 52 * (2 : ℚ) ^ spacing x = 2 ^ ((52 : ℤ) + spacing x) := by rw [zpow_add₀ (by norm_num)]; rfl
    _ = 2 ^ Int.log 2 |x| := by rw [h1]; congr 1; ring
    _ ≤ |x| := h2

theorem isFormat_of_le {m e : ℤ} (hm : |m| ≤ 2 ^ 53) (he : -1074 ≤ e) : IsFormat (m * 2 ^ e) := by
  rcases lt_or_eq_of_le hm with h | h
  · exact ⟨m, e, h, he, rfl⟩
  · have h2 : (2 : ℚ) ^ (e + 1) = 2 ^ e * 2 := by rw [zpow_add₀ (by norm_num)]; norm_num
    rcases abs_eq (by norm_num : (0 : ℤ) ≤ 2 ^ 53) |>.mp h with rfl | rfl
    · refine ⟨2 ^ 52, e + 1, by norm_num, by omega, ?_⟩
      rw [h2]; push_cast; ring
    · refine ⟨-2 ^ 52, e + 1, by norm_num, by omega, ?_⟩
      rw [h2]; push_cast; ring

theorem rnd_format (x : ℚ) : IsFormat (rnd x) := by
  refine isFormat_of_le ?_ (le_max_right _ _)
  have h1 := lt_spacing x
  have hp := two_pos (spacing x)
  have h2 : |x / 2 ^ spacing x| < 2 ^ 53 := by
    rw [abs_div, abs_of_pos hp, div_lt_iff₀ hp]
    exact h1
  have h3 := roundInt_half (x / 2 ^ spacing x)
  have h4 : |(roundInt (x / 2 ^ spacing x) : ℚ)| < 2 ^ 53 + 1 := by
    have := abs_sub_abs_le_abs_sub (roundInt (x / 2 ^ spacing x) : ℚ) (x / 2 ^ spacing x)
    linarith
  have h5 : |roundInt (x / 2 ^ spacing x)| < 2 ^ 53 + 1 := by exact_mod_cast h4
  omega

theorem rnd_zero : rnd 0 = 0 := by
  simp [rnd, roundInt]

/-- No value is nearer. -/
theorem rnd_near (x : ℚ) {z : ℚ} (hz : IsFormat z) : |rnd x - x| ≤ |z - x| := by
  by_cases hx : x = 0
  · subst hx; simp [rnd_zero]
  have hp := two_pos (spacing x)
  -- multiples of the spacing
  have key : ∀ k : ℤ, |rnd x - x| ≤ |(k : ℚ) * 2 ^ spacing x - x| := by
    intro k
    have h := roundInt_near (x / 2 ^ spacing x) k
    have e : ∀ j : ℤ, |(j : ℚ) * 2 ^ spacing x - x| = |(j : ℚ) - x / 2 ^ spacing x| * 2 ^ spacing x := fun j => by
      rw [← abs_of_pos hp, ← abs_mul, abs_of_pos hp, sub_mul, div_mul_cancel₀ _ hp.ne']
    unfold rnd
    rw [e, e]
    exact mul_le_mul_of_nonneg_right h hp.le
  obtain ⟨m, e, hm, he, rfl⟩ := hz
  rcases le_or_gt (spacing x) e with h | h
  · obtain ⟨d, hd⟩ := Int.le.dest h
    have : (m : ℚ) * 2 ^ e = ((m * 2 ^ d : ℤ) : ℚ) * 2 ^ spacing x := by
      rw [← hd, zpow_add₀ (by norm_num)]
      push_cast
      rw [zpow_natCast]
      ring
    rw [this]
    exact key _
  · -- a value of finer spacing is smaller than all values around `x`
    have h1 := spacing_le hx (by omega)
    have h2 : |(m : ℚ) * 2 ^ e| ≤ 2 ^ 52 * 2 ^ spacing x := by
      rw [abs_mul, abs_of_pos (two_pos e)]
      have h3 : |(m : ℚ)| ≤ 2 ^ 53 := by
        have : ((|m| : ℤ) : ℚ) < ((2 ^ 53 : ℤ) : ℚ) := by exact_mod_cast hm
        push_cast at this
        exact this.le
      have h4 : (2 : ℚ) ^ e ≤ 2 ^ (spacing x - 1) := zpow_le_zpow_right₀ (by norm_num) (by omega)
      have h5 : (2 : ℚ) ^ spacing x = 2 * 2 ^ (spacing x - 1) := by
        rw [← zpow_one_add₀ (by norm_num)]; congr 1; ring
      calc |(m : ℚ)| * 2 ^ e ≤ 2 ^ 53 * 2 ^ (spacing x - 1) := mul_le_mul h3 h4 (two_pos e).le (by norm_num)
        _ = _ := by rw [h5]; ring
    rw [abs_le] at h2
    rcases le_or_gt 0 x with h0 | h0
    · refine (key (2 ^ 52)).trans ?_
      push_cast
      rw [abs_of_nonneg h0] at h1
      rw [abs_of_nonpos (by linarith), abs_of_nonpos (by linarith)]
      linarith
    · refine (key (-2 ^ 52)).trans ?_
      push_cast
      rw [abs_of_neg h0] at h1
      rw [abs_of_nonneg (by linarith), abs_of_nonneg (by linarith)]
      linarith

/-- If there are two nearest values, the one with an even significand is taken. -/
theorem rnd_tie (x : ℚ) {z : ℚ} (hz : IsFormat z) (hne : z ≠ rnd x) (hd : |z - x| = |rnd x - x|) :
    ∃ m e : ℤ, -1074 ≤ e ∧ rnd x = (2 * m : ℤ) * 2 ^ e ∧ |z - rnd x| = 2 ^ e := by
  have hx : x ≠ 0 := by
    rintro rfl
    rw [rnd_zero, sub_zero, sub_zero, abs_zero, abs_eq_zero] at hd
    exact hne (by rw [hd, rnd_zero])
  have hp := two_pos (spacing x)
  obtain ⟨k, rfl⟩ : ∃ k : ℤ, z = (k : ℚ) * 2 ^ spacing x := by
    obtain ⟨m, e, hm, he, rfl⟩ := hz
    rcases le_or_gt (spacing x) e with h | h
    · obtain ⟨d, hd⟩ := Int.le.dest h
      refine ⟨m * 2 ^ d, ?_⟩
      rw [← hd, zpow_add₀ (by norm_num)]
      push_cast
      rw [zpow_natCast]
      ring
    · -- the smallest value of the spacing around `x` is nearer
      exfalso
      have h1 := spacing_le hx (by omega)
      have h2 : |(m : ℚ) * 2 ^ e| < 2 ^ 52 * 2 ^ spacing x := by
        rw [abs_mul, abs_of_pos (two_pos e)]
        have h3 : |(m : ℚ)| < 2 ^ 53 := by
          have : ((|m| : ℤ) : ℚ) < ((2 ^ 53 : ℤ) : ℚ) := by exact_mod_cast hm
          push_cast at this
          exact this
        have h4 : (2 : ℚ) ^ e ≤ 2 ^ (spacing x - 1) := zpow_le_zpow_right₀ (by norm_num) (by omega)
        have h5 : (2 : ℚ) ^ spacing x = 2 * 2 ^ (spacing x - 1) := by
          rw [← zpow_one_add₀ (by norm_num)]; congr 1; ring
        calc |(m : ℚ)| * 2 ^ e < 2 ^ 53 * 2 ^ e := mul_lt_mul_of_pos_right h3 (two_pos e)
          _ ≤ 2 ^ 53 * 2 ^ (spacing x - 1) := mul_le_mul_of_nonneg_left h4 (by norm_num)
          _ = _ := by rw [h5]; ring
      rw [abs_lt] at h2
      have hs : -1074 ≤ spacing x := le_max_right _ _
      rcases le_or_gt 0 x with h0 | h0
      · have hn := rnd_near x (isFormat_of_le (m := 2 ^ 52) (e := spacing x) (by norm_num) hs)
        rw [← hd] at hn
        push_cast at hn
        rw [abs_of_nonneg h0] at h1
        rw [abs_of_nonpos (by linarith), abs_of_nonpos (by linarith)] at hn
        linarith
      · have hn := rnd_near x (isFormat_of_le (m := -2 ^ 52) (e := spacing x) (by norm_num) hs)
        rw [← hd] at hn
        push_cast at hn
        rw [abs_of_neg h0] at h1
        rw [abs_of_nonneg (by linarith), abs_of_nonneg (by linarith)] at hn
        linarith
  have e : ∀ j : ℤ, |(j : ℚ) * 2 ^ spacing x - x| = |(j : ℚ) - x / 2 ^ spacing x| * 2 ^ spacing x := fun j => by
    rw [← abs_of_pos hp, ← abs_mul, abs_of_pos hp, sub_mul, div_mul_cancel₀ _ hp.ne']
  have hd' := hd
  unfold rnd at hd' hne
  rw [e, e] at hd'
  have hd2 := mul_right_cancel₀ hp.ne' hd'
  obtain ⟨r, hr⟩ : ∃ r, r = roundInt (x / 2 ^ spacing x) := ⟨_, rfl⟩
  have hkr : k ≠ r := by rintro rfl; exact hne (by rw [hr])
  have ht := roundInt_tie _ k (by rw [← hr]; exact hkr) hd2
  have hh := roundInt_half (x / 2 ^ spacing x)
  rw [← hr] at ht hd2 hh
  refine ⟨r / 2, spacing x, le_max_right _ _, ?_, ?_⟩
  · rw [rnd, ← hr]
    congr 2
    omega
  · rw [rnd, ← hr, ← sub_mul, abs_mul, abs_of_pos hp]
    have h1 : |(k : ℚ) - r| ≤ 1 := by
      have := abs_sub_le (k : ℚ) (x / 2 ^ spacing x) r
      rw [abs_sub_comm (x / 2 ^ spacing x)] at this
      linarith
    have h2 : |k - r| = 1 := by
      have h3 : |k - r| ≤ 1 := by exact_mod_cast h1
      have h4 : 0 < |k - r| := abs_pos.mpr (sub_ne_zero.mpr hkr)
      omega
    have h3 : |(k : ℚ) - r| = 1 := by exact_mod_cast h2
    rw [h3, one_mul]

theorem rnd_of_format {x : ℚ} (h : IsFormat x) : rnd x = x := by
  have := rnd_near x h
  rw [sub_self, abs_zero] at this
  exact sub_eq_zero.mp (abs_eq_zero.mp (le_antisymm this (abs_nonneg _)))

theorem rnd_mono : Monotone rnd := by
  intro x y hxy
  rcases eq_or_lt_of_le hxy with rfl | hlt
  · exact le_rfl
  by_contra h
  push Not at h
  have h1 := rnd_near x (rnd_format y)
  have h2 := rnd_near y (rnd_format x)
  rcases abs_cases (rnd x - x) with ⟨e1, f1⟩ | ⟨e1, f1⟩ <;> rcases abs_cases (rnd y - x) with ⟨e2, f2⟩ | ⟨e2, f2⟩ <;>
    rcases abs_cases (rnd y - y) with ⟨e3, f3⟩ | ⟨e3, f3⟩ <;> rcases abs_cases (rnd x - y) with ⟨e4, f4⟩ | ⟨e4, f4⟩ <;>
    rw [e1, e2] at h1 <;> rw [e3, e4] at h2 <;> linarith

theorem rnd_half (x : ℚ) : |rnd x - x| ≤ 2 ^ spacing x / 2 := by
  have hp := two_pos (spacing x)
  have h := roundInt_half (x / 2 ^ spacing x)
  have e : |rnd x - x| = |(roundInt (x / 2 ^ spacing x) : ℚ) - x / 2 ^ spacing x| * 2 ^ spacing x := by
    rw [← abs_of_pos hp, ← abs_mul, abs_of_pos hp, sub_mul, div_mul_cancel₀ _ hp.ne']
    rfl
  rw [e]
  calc _ ≤ 1 / 2 * (2 : ℚ) ^ spacing x := mul_le_mul_of_nonneg_right h hp.le
    _ = _ := by ring

/-- the error of rounding -/
theorem rnd_error (x : ℚ) : |rnd x - x| ≤ max (|x| / 2 ^ 53) (2 ^ (-1075 : ℤ)) := by
  by_cases hx : x = 0
  · subst hx; simp [rnd_zero]
  have h := rnd_half x
  by_cases hs : spacing x = -1074
  · refine (h.trans ?_).trans (le_max_right _ _)
    rw [hs, show (-1074 : ℤ) = -1075 + 1 by norm_num, zpow_add_one₀ (by norm_num), mul_div_cancel_right₀ _ (by norm_num)]
  · refine (h.trans ?_).trans (le_max_left _ _)
    have := spacing_le hx hs
    rw [le_div_iff₀ (by norm_num)]
    linarith

theorem rnd_rel {x : ℚ} (hx : 2 ^ (-1022 : ℤ) ≤ |x|) : |rnd x - x| ≤ |x| / 2 ^ 53 := by
  refine (rnd_error x).trans (max_le le_rfl ?_)
  rw [le_div_iff₀ (by norm_num)]
  refine le_trans (le_of_eq ?_) hx
  rw [show (-1022 : ℤ) = -1075 + 53 by norm_num, zpow_add₀ (by norm_num)]
  rfl

theorem isFormat_int {k : ℤ} (hk : |k| ≤ 2 ^ 53) : IsFormat k := by
  have := isFormat_of_le (e := 0) hk (by norm_num)
  simpa using this

theorem rnd_int {k : ℤ} (hk : |k| ≤ 2 ^ 53) : rnd k = k := rnd_of_format (isFormat_int hk)

theorem IsFormat.neg {x : ℚ} (h : IsFormat x) : IsFormat (-x) := by
  obtain ⟨m, e, h1, h2, rfl⟩ := h
  exact ⟨-m, e, by rwa [abs_neg], h2, by push_cast; ring⟩

/-- the result is known if it is near enough -/
theorem rnd_eq {x y : ℚ} (hy : IsFormat y) (h : ∀ z, IsFormat z → z ≠ y → |y - x| < |z - x|) : rnd x = y := by
  by_contra hne
  have h1 := h _ (rnd_format x) hne
  have h2 := rnd_near x hy
  linarith

theorem spacing_eq {x : ℚ} {e : ℤ} (he : -1074 ≤ e) (h1 : 2 ^ 52 * 2 ^ e ≤ |x|) (h2 : |x| < 2 ^ 53 * 2 ^ e) : spacing x = e := by
  have hpos : 0 < |x| := lt_of_lt_of_le (mul_pos (by norm_num) (two_pos e)) h1
  have e1 : (2 : ℚ) ^ 52 * 2 ^ e = ((2 : ℕ) : ℚ) ^ (52 + e) := by rw [Nat.cast_ofNat, zpow_add₀ (by norm_num)]; rfl
  have e2 : (2 : ℚ) ^ 53 * 2 ^ e = ((2 : ℕ) : ℚ) ^ (53 + e) := by rw [Nat.cast_ofNat, zpow_add₀ (by norm_num)]; rfl
  rw [e1, Int.zpow_le_iff_le_log (by norm_num) hpos] at h1
  rw [e2, Int.lt_zpow_iff_log_lt (by norm_num) hpos] at h2
  unfold spacing
  rw [max_eq_left (by omega)]
  omega

theorem roundInt_eq {x : ℚ} {m : ℤ} (h : |x - m| < 1 / 2) : roundInt x = m := by
  have h1 := roundInt_near x m
  rw [abs_sub_comm] at h
  have h2 : |(roundInt x : ℚ) - m| < 1 := by
    have := abs_sub_le (roundInt x : ℚ) x m
    rw [abs_sub_comm x] at this
    linarith
  have h3 : |roundInt x - m| < 1 := by exact_mod_cast h2
  rw [Int.abs_lt_one_iff] at h3
  omega

/-- a rounded value, from its binary digits -/
theorem rnd_val {x : ℚ} (m e : ℤ) (he : -1074 ≤ e) (h1 : 2 ^ 52 * 2 ^ e ≤ |x|) (h2 : |x| < 2 ^ 53 * 2 ^ e)
    (h3 : |x - m * 2 ^ e| < 2 ^ e / 2) : rnd x = m * 2 ^ e := by
  have hp := two_pos e
  rw [rnd, spacing_eq he h1 h2, roundInt_eq (m := m)]
  have : x / 2 ^ e - m = (x - m * 2 ^ e) / 2 ^ e := by field_simp
  rw [this, abs_div, abs_of_pos hp, div_lt_iff₀ hp]
  linarith

theorem isFormat_two (e : ℤ) (he : -1074 ≤ e) : IsFormat (2 ^ e) := ⟨1, e, by norm_num, he, by simp⟩

theorem rnd_abs_le {x : ℚ} {e : ℤ} (he : -1074 ≤ e) (h : |x| ≤ 2 ^ e) : |rnd x| ≤ 2 ^ e := by
  rw [abs_le] at h ⊢
  refine ⟨?_, ?_⟩
  · have := rnd_mono h.1
    rwa [rnd_of_format (IsFormat.neg (isFormat_two e he))] at this
  · have := rnd_mono h.2
    rwa [rnd_of_format (isFormat_two e he)] at this

theorem big_lt : (2 : ℚ) ^ (1023 : ℤ) < 2 ^ 1024 := by
  have : (2 : ℚ) ^ (1023 : ℤ) < 2 ^ (1024 : ℤ) := zpow_lt_zpow_right₀ (by norm_num) (by norm_num)
  exact this

/-- no overflow -/
theorem fl_some {x : ℚ} (h : |x| ≤ 2 ^ (1023 : ℤ)) : fl x = some (rnd x) := by
  rw [fl, if_pos ((rnd_abs_le (by norm_num) h).trans_lt big_lt)]

theorem fl_eq {x y : ℚ} (h : fl x = some y) : y = rnd x := by
  unfold fl at h
  split at h
  · exact (Option.some.inj h).symm
  · cases h

/-- the error of rounding, in a form that can be added up -/
theorem rnd_err (x : ℚ) : |rnd x - x| ≤ |x| / 2 ^ 53 + 2 ^ (-1075 : ℤ) :=
  (rnd_error x).trans (max_le (le_add_of_nonneg_right (two_pos _).le) (le_add_of_nonneg_left (by positivity)))

end Schnek.Lemma.Binary64
