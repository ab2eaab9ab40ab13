import Verif.Spec.TypedSettings
import Verif.Lemma.MixedSettings
import Verif.Props.NumberText

/-!
# Lemmas on floating point numbers in setup files made by a program
-/

namespace Schnek.Lemma.SettingsText

open Schnek.Scanner Schnek.Spec Schnek.Spec.Lexer Schnek.Lemma.Scanner Schnek.Lemma.Lexer
open Schnek.Spec.SettingsText Schnek.Lemma.Diag Schnek.Diagnostic Schnek.NumberText Schnek.Deck Schnek.Lemma.Deck

/-! ## the states of the scanner -/

theorem float_tables : (strip (dv 46 (resid 14)) = resid 11 ∧ firstNull (dv 46 (resid 14)) = some 26) ∧
    (strip (dv 101 (resid 14)) = resid 5 ∧ strip (dv 101 (resid 11)) = resid 5) ∧
    (strip (dv 43 (resid 5)) = resid 6 ∧ strip (dv 45 (resid 5)) = resid 6) ∧
    (∀ b : Byte, isDigit b = true → strip (dv b (resid 11)) = resid 11 ∧ firstNull (dv b (resid 11)) = some 26) ∧
    (∀ b : Byte, isDigit b = true → strip (dv b (resid 6)) = resid 12 ∧ firstNull (dv b (resid 6)) = some 26) ∧
    (∀ b : Byte, isDigit b = true → strip (dv b (resid 12)) = resid 12 ∧ firstNull (dv b (resid 12)) = some 26) ∧
    dv 59 (resid 11) = [] ∧ dv 59 (resid 12) = [] := by decide +kernel

/-- the text is a floating point number, and the scanner is in state `k` after it -/
def FloatEnd (k : ℕ) (w : List Byte) : Prop := ∃ u b, w = u ++ [b] ∧ firstNull (dv b (vecOf u)) = some 26 ∧ vecOf w = resid k

theorem floatEnd_digits {k : ℕ} (hk : ∀ b : Byte, isDigit b = true → strip (dv b (resid k)) = resid k ∧ firstNull (dv b (resid k)) = some 26)
    {w g : List Byte} (hw : FloatEnd k w) (hg : ∀ b ∈ g, isDigit b = true) : FloatEnd k (w ++ g) := by
  induction g using List.reverseRecOn with
  | nil => simpa using hw
  | append_singleton g b ih =>
    obtain ⟨u, c, -, -, h⟩ := ih fun b hb => hg b (by simp [hb])
    refine ⟨w ++ g, b, by simp, ?_, ?_⟩
    · rw [h]; exact (hk b (hg b (by simp))).2
    · rw [← List.append_assoc, vecOf_append, h]; exact (hk b (hg b (by simp))).1

/-- a point and digits, or nothing -/
def PointText (f : List Byte) : Prop := f = [] ∨ ∃ g, f = 46 :: g ∧ ∀ b ∈ g, isDigit b = true

/-- an exponent, or nothing -/
def ExpText (x : List Byte) : Prop := x = [] ∨ ∃ s g, x = 101 :: s :: g ∧ (s = 43 ∨ s = 45) ∧ g ≠ [] ∧ ∀ b ∈ g, isDigit b = true

theorem floatEnd_of {i f x : List Byte} (hi : ∀ b ∈ i, isDigit b = true) (hne : i ≠ []) (hf : PointText f) (hx : ExpText x)
    (h : f ≠ [] ∨ x ≠ []) : FloatEnd 11 (i ++ f ++ x) ∨ FloatEnd 12 (i ++ f ++ x) := by
  obtain ⟨⟨t1, t2⟩, ⟨t3, t4⟩, ⟨t5, t6⟩, t7, t8, t9, -⟩ := float_tables
  have hI := digits_state hi hne
  have hF : (f = [] ∧ vecOf (i ++ f) = resid 14) ∨ FloatEnd 11 (i ++ f) := by
    rcases hf with rfl | ⟨g, rfl, hg⟩
    · exact Or.inl ⟨rfl, by rw [List.append_nil]; exact hI⟩
    · refine Or.inr ?_
      rw [show i ++ 46 :: g = (i ++ [46]) ++ g by simp]
      exact floatEnd_digits t7 ⟨i, 46, rfl, by rw [hI]; exact t2, by rw [vecOf_append, hI]; exact t1⟩ hg
  rcases hx with rfl | ⟨s, g, rfl, hs, hgn, hg⟩
  · rcases hF with ⟨rfl, -⟩ | hF
    · simp at h
    · exact Or.inl (by simpa using hF)
  · refine Or.inr ?_
    have h5 : vecOf (i ++ f ++ [101]) = resid 5 := by
      rw [vecOf_append]
      rcases hF with ⟨-, hF⟩ | ⟨-, -, -, -, hF⟩
      · rw [hF]; exact t3
      · rw [hF]; exact t4
    have h6 : vecOf (i ++ f ++ [101] ++ [s]) = resid 6 := by
      rw [vecOf_append, h5]
      rcases hs with rfl | rfl
      · exact t5
      · exact t6
    obtain ⟨b, g, rfl⟩ := List.exists_cons_of_ne_nil hgn
    rw [show i ++ f ++ 101 :: s :: b :: g = (i ++ f ++ [101] ++ [s] ++ [b]) ++ g by simp]
    have hb := t8 b (hg b (by simp))
    exact floatEnd_digits t9 ⟨_, b, rfl, by rw [h6]; exact hb.2, by rw [vecOf_append, h6]; exact hb.1⟩ fun c hc => hg c (by simp [hc])

/-- a floating point number before a semicolon -/
theorem reads_float {w : List Byte} (hw : FloatEnd 11 w ∨ FloatEnd 12 w) (hlen : w.length < bufSize) {r : List Byte}
    {p : List (Kind × List Byte)} (hr : Reads (59 :: r) p) : Reads (w ++ 59 :: r) ((.float, w) :: p) := by
  obtain ⟨-, -, -, -, -, -, s1, s2⟩ := float_tables
  obtain ⟨u, b, rfl, h1, h2⟩ : ∃ u b, w = u ++ [b] ∧ firstNull (dv b (vecOf u)) = some 26 ∧ dv 59 (vecOf w) = [] := by
    rcases hw with ⟨u, b, h, h1, h2⟩ | ⟨u, b, h, h1, h2⟩
    · exact ⟨u, b, h, h1, by rw [h2]; exact s1⟩
    · exact ⟨u, b, h, h1, by rw [h2]; exact s2⟩
  have := reads_token (u := u) (b := b) (c := 59) (i := 26) h1 h2 (by decide)
    (by simp only [List.length_append, List.length_singleton] at hlen; omega) hr
  simpa [useOf, patterns, emitted, plainToks] using this

/-! ## the text of a number -/

/-- the characters of a text -/
def toBytes (l : List Char) : List Byte := bytes (String.ofList l)

theorem toBytes_eq (l : List Char) : toBytes l = l.map fun c => Fin.ofNat 256 c.toNat := by
  unfold toBytes bytes
  rw [String.toList_ofList]

theorem toBytes_append (a b : List Char) : toBytes (a ++ b) = toBytes a ++ toBytes b := by
  simp [toBytes_eq]

theorem toBytes_cons (c : Char) (b : List Char) : toBytes (c :: b) = Fin.ofNat 256 c.toNat :: toBytes b := by
  simp [toBytes_eq]

theorem toBytes_ne {l : List Char} (h : l ≠ []) : toBytes l ≠ [] := by
  rw [toBytes_eq]
  simpa using h

theorem toBytes_length (l : List Char) : (toBytes l).length = l.length := by
  rw [toBytes_eq, List.length_map]

theorem toBytes_digits {l : List Char} (h : ∀ c ∈ l, c.isDigit = true) : ∀ b ∈ toBytes l, isDigit b = true := by
  rw [toBytes_eq]
  intro b hb
  obtain ⟨c, hc, rfl⟩ := List.mem_map.mp hb
  have h1 : 48 ≤ c.toNat ∧ c.toNat ≤ 57 := by
    have := (NumberText.isDigit_iff c).mp (h c hc)
    omega
  obtain ⟨h2, h3⟩ := h1
  generalize c.toNat = k at *
  interval_cases k <;> decide

theorem stripZeros_part (l : List Char) : (∀ c ∈ stripZeros l, c ∈ l) ∧ (stripZeros l).length ≤ l.length := by
  obtain ⟨k, hk⟩ := NumberText.stripZeros_spec l
  constructor
  · intro c hc
    rw [hk]
    exact List.mem_append_left _ hc
  · conv_rhs => rw [hk]
    rw [List.length_append]
    omega

theorem fraction_text {f : List Char} (h : ∀ c ∈ f, c.isDigit = true) :
    PointText (toBytes (fraction f)) ∧ (fraction f).length ≤ f.length + 1 := by
  obtain ⟨h1, h2⟩ := stripZeros_part f
  unfold fraction
  split
  · exact ⟨Or.inl rfl, by simp⟩
  · refine ⟨Or.inr ⟨_, toBytes_cons _ _, toBytes_digits fun c hc => h c (h1 c hc)⟩, ?_⟩
    rw [List.length_cons]
    omega

theorem decimalNat_short {n : ℕ} (h : n < 1000) : (decimalNat n).length ≤ 3 := by
  unfold decimalNat
  split
  · simp
  · rw [List.length_map, List.length_reverse]
    exact (Nat.digits_length_le_iff (by norm_num) n).mpr (by omega)

theorem exponent_text {e : ℤ} (he : e.natAbs < 1000) : ExpText (toBytes (exponentText e)) ∧ (exponentText e).length ≤ 6 := by
  have hd := decimalNat_digit e.natAbs
  have hl := decimalNat_short he
  unfold exponentText
  refine ⟨Or.inr ⟨_, _, by rw [toBytes_cons, toBytes_cons]; rfl, ?_, ?_, ?_⟩, ?_⟩
  · by_cases h : e < 0
    · rw [if_pos h]; exact Or.inr (by decide)
    · rw [if_neg h]; exact Or.inl (by decide)
  · refine toBytes_ne ?_
    split
    · simp
    · exact decimalNat_ne _
  · refine toBytes_digits ?_
    split
    · intro c hc
      rcases List.mem_cons.mp hc with rfl | hc
      · decide
      · exact hd c hc
    · exact hd
  · rw [List.length_cons, List.length_cons]
    by_cases h : e.natAbs < 10
    · rw [if_pos h, List.length_cons]; omega
    · rw [if_neg h]; omega

theorem significant_bound {a : ℚ} (h0 : 0 < a) (ha : Binary64.IsDouble a) : (significant a).2.natAbs < 1000 := by
  have h1 : Int.log 10 a < 342 := by
    rw [← Int.lt_zpow_iff_log_lt (by norm_num) h0]
    have h := ha.2
    rw [abs_of_pos h0] at h
    refine h.trans_le ?_
    calc (2 : ℚ) ^ 1024 ≤ 2 ^ (3 * 342) := pow_le_pow_right₀ (by norm_num) (by norm_num)
      _ = (2 ^ 3) ^ 342 := pow_mul _ _ _
      _ ≤ 10 ^ 342 := pow_le_pow_left₀ (by norm_num) (by norm_num) _
      _ = ((10 : ℕ) : ℚ) ^ (342 : ℤ) := by rw [← zpow_natCast]; rfl
  have h2 : (-358 : ℤ) ≤ Int.log 10 a := by
    rw [← Int.zpow_le_iff_le_log (by norm_num) h0]
    obtain ⟨⟨m, e, -, he, rfl⟩, -⟩ := ha
    have hp : (0 : ℚ) < 2 ^ e := by positivity
    have hm : (1 : ℤ) ≤ m := by
      have : (0 : ℚ) < m := (mul_pos_iff_of_pos_right hp).mp h0
      exact_mod_cast this
    have hm' : (1 : ℚ) ≤ m := by exact_mod_cast hm
    calc ((10 : ℕ) : ℚ) ^ (-358 : ℤ) = (10 ^ 358)⁻¹ := by rw [zpow_neg]; rfl
      _ ≤ ((2 ^ 3) ^ 358)⁻¹ := inv_anti₀ (by positivity) (pow_le_pow_left₀ (by norm_num) (by norm_num) _)
      _ = (2 ^ 1074)⁻¹ := by rw [← pow_mul]
      _ = (2 : ℚ) ^ (-1074 : ℤ) := by rw [zpow_neg]; rfl
      _ ≤ 2 ^ e := zpow_le_zpow_right₀ (by norm_num) he
      _ = 1 * 2 ^ e := (one_mul _).symm
      _ ≤ m * 2 ^ e := mul_le_mul_of_nonneg_right hm' hp.le
  unfold significant
  simp only
  split <;> simp only <;> omega

/-- the parts of the text of a positive number -/
theorem showPos_parts {a : ℚ} (h0 : 0 < a) (ha : Binary64.IsDouble a) : ∃ i f x, showPos a = i ++ f ++ x ∧ (∀ c ∈ i, c.isDigit = true) ∧ i ≠ [] ∧
    PointText (toBytes f) ∧ ExpText (toBytes x) ∧ (i ++ f ++ x).length ≤ 60 := by
  obtain ⟨h1, h2, -⟩ := NumberText.significant_spec h0
  have hb := significant_bound h0 ha
  unfold showPos
  rcases hs : significant a with ⟨m, e⟩
  rw [hs] at h1 h2 hb
  simp only at h1 h2 hb ⊢
  have hlen : (decimalNat m).length = 17 := NumberText.length_decimalNat (k := 16) h1 h2
  have hdig := decimalNat_digit m
  have htk : ∀ j, ∀ c ∈ (decimalNat m).take j, c.isDigit = true := fun j c hc => hdig c (List.mem_of_mem_take hc)
  have hdr : ∀ j, ∀ c ∈ (decimalNat m).drop j, c.isDigit = true := fun j c hc => hdig c (List.mem_of_mem_drop hc)
  have hne : ∀ j, (decimalNat m).take (j + 1) ≠ [] := by
    intro j h
    have := congrArg List.length h
    rw [List.length_take, hlen] at this
    simp at this
  have hl1 : ∀ j, ((decimalNat m).take j).length ≤ 17 := fun j => by rw [List.length_take, hlen]; omega
  have hl2 : ∀ j, ((decimalNat m).drop j).length ≤ 17 := fun j => by rw [List.length_drop, hlen]; omega
  by_cases hc : e < -4 ∨ 17 ≤ e
  · rw [if_pos hc]
    obtain ⟨f1, f2⟩ := fraction_text (hdr 1)
    obtain ⟨x1, x2⟩ := exponent_text hb
    refine ⟨_, _, _, rfl, htk 1, hne 0, f1, x1, ?_⟩
    have := hl1 1
    have := hl2 1
    simp only [List.length_append]
    omega
  rw [if_neg hc]
  rw [not_or] at hc
  by_cases hn : e < 0
  · rw [if_pos hn]
    obtain ⟨f1, f2⟩ := fraction_text (f := List.replicate (-e - 1).toNat '0' ++ decimalNat m) (by
      intro c hc
      rcases List.mem_append.mp hc with hc | hc
      · rw [List.eq_of_mem_replicate hc]; decide
      · exact hdig c hc)
    refine ⟨['0'], _, [], by simp, by decide, by simp, f1, Or.inl rfl, ?_⟩
    rw [List.length_append, List.length_replicate, hlen] at f2
    simp only [List.length_append, List.length_cons, List.length_nil]
    omega
  · rw [if_neg hn]
    obtain ⟨f1, f2⟩ := fraction_text (hdr (e.toNat + 1))
    refine ⟨_, _, [], (List.append_nil _).symm, htk _, hne _, f1, Or.inl rfl, ?_⟩
    have := hl1 (e.toNat + 1)
    have := hl2 (e.toNat + 1)
    simp only [List.length_append, List.length_nil]
    omega

/-- a positive number whose text has a point or an exponent -/
theorem showPos_end {a : ℚ} (h0 : 0 < a) (ha : Binary64.IsDouble a) (h : ∃ c ∈ showPos a, c = '.' ∨ c = 'e') :
    (FloatEnd 11 (toBytes (showPos a)) ∨ FloatEnd 12 (toBytes (showPos a))) ∧ (toBytes (showPos a)).length ≤ 60 ∧
      ∃ b w, toBytes (showPos a) = b :: w ∧ isDigit b = true := by
  obtain ⟨i, f, x, he, hi, hne, hf, hx, hl⟩ := showPos_parts h0 ha
  have hi' := toBytes_digits hi
  rw [he] at h ⊢
  refine ⟨?_, by rw [toBytes_length]; exact hl, ?_⟩
  · rw [toBytes_append, toBytes_append]
    refine floatEnd_of hi' (toBytes_ne hne) hf hx ?_
    by_contra hn
    rw [not_or, not_not, not_not] at hn
    have h1 : f = [] := by by_contra h'; exact toBytes_ne h' hn.1
    have h2 : x = [] := by by_contra h'; exact toBytes_ne h' hn.2
    subst h1 h2
    obtain ⟨c, hc, hor⟩ := h
    rw [List.append_nil, List.append_nil] at hc
    have := hi c hc
    rcases hor with rfl | rfl <;> revert this <;> decide
  · obtain ⟨b, w, hw⟩ := List.exists_cons_of_ne_nil (toBytes_ne hne)
    refine ⟨b, w ++ toBytes f ++ toBytes x, by rw [toBytes_append, toBytes_append, hw]; simp, hi' b (by rw [hw]; simp)⟩

end Schnek.Lemma.SettingsText
