import Verif.Model.NumberText
import Verif.Spec.NumberText
import Verif.Lemma.Binary64
import Verif.Lemma.Diagnostic
import Verif.Lemma.DiagnosticDouble
import Mathlib.Tactic.Linarith
import Mathlib.Tactic.Ring
import Mathlib.Tactic.FieldSimp
import Mathlib.Tactic.NormNum

/-!
# Lemmas on numbers as text
-/

namespace Schnek.Lemma.NumberText

open Schnek.NumberText Schnek.Spec.NumberText Schnek.Binary64 Schnek.Diagnostic Schnek.Lemma.Binary64 Schnek.Lemma.Diag

/-! ## digits -/

theorem value_append (a b : List Char) : value (a ++ b) = value a * 10 ^ b.length + value b := by
  induction b using List.reverseRecOn with
  | nil => simp [value]
  | append_singleton l c ih =>
    have h1 : value (a ++ (l ++ [c])) = 10 * value (a ++ l) + (c.toNat - 48) := by
      rw [← List.append_assoc]; simp [value, List.foldl_append]
    have h2 : value (l ++ [c]) = 10 * value l + (c.toNat - 48) := by simp [value, List.foldl_append]
    rw [h1, h2, ih, List.length_append, List.length_singleton, pow_succ]
    ring

theorem isDigit_iff (c : Char) : c.isDigit = true ↔ 48 ≤ c.toNat ∧ c.toNat ≤ 57 := by
  simp only [Char.isDigit, Bool.and_eq_true, decide_eq_true_eq]
  constructor
  · rintro ⟨h1, h2⟩
    exact ⟨UInt32.le_iff_toNat_le.mp h1, UInt32.le_iff_toNat_le.mp h2⟩
  · rintro ⟨h1, h2⟩
    exact ⟨UInt32.le_iff_toNat_le.mpr h1, UInt32.le_iff_toNat_le.mpr h2⟩

theorem digits_iff {l : List Char} {n : ℕ} : Digits l n ↔ (∀ c ∈ l, c.isDigit = true) ∧ n = value l := by
  constructor
  · intro h
    induction h with
    | nil => exact ⟨by simp, rfl⟩
    | @snoc l n c d _ hc ih =>
      obtain ⟨hd, hc⟩ := hc
      have hz : '0'.toNat = 48 := rfl
      rw [hz] at hc
      refine ⟨?_, ?_⟩
      · intro x hx
        rcases List.mem_append.mp hx with hx | hx
        · exact ih.1 x hx
        · rw [List.mem_singleton] at hx; subst hx
          rw [isDigit_iff]; omega
      · rw [value_append, ih.2]
        simp only [value, List.foldl_cons, List.foldl_nil, List.length_singleton, pow_one]
        omega
  · rintro ⟨h, rfl⟩
    induction l using List.reverseRecOn with
    | nil => exact .nil
    | append_singleton l c ih =>
      have hc := (isDigit_iff c).mp (h c (by simp))
      have hv : value (l ++ [c]) = 10 * value l + (c.toNat - 48) := by simp [value, List.foldl_append]
      rw [hv]
      exact .snoc (ih fun x hx => h x (by simp [hx])) ⟨by omega, by show c.toNat = 48 + (c.toNat - 48); omega⟩

/-! ## integers -/

theorem sign_spec (l : List Char) : ∃ t k, Sign t k ∧ l = t ++ (sign l).2 ∧ k = if (sign l).1 then -1 else 1 := by
  unfold sign
  split
  · exact ⟨_, _, .minus, rfl, rfl⟩
  · exact ⟨_, _, .plus, rfl, rfl⟩
  · exact ⟨_, _, .none, rfl, rfl⟩

/-- neither `+` nor `-` comes first -/
theorem sign_of {t r : List Char} {k : ℤ} (h : Sign t k) (hr : r.head? ≠ some '+' ∧ r.head? ≠ some '-') :
    sign (t ++ r) = (decide (k < 0), r) := by
  cases h with
  | none =>
    cases r with
    | nil => rfl
    | cons c r =>
      simp only [List.head?_cons, ne_eq, Option.some.injEq] at hr
      show sign (c :: r) = _
      unfold sign
      split
      · rename_i h; cases h; exact absurd rfl hr.2
      · rename_i h; cases h; exact absurd rfl hr.1
      · rfl
  | plus => rfl
  | minus => rfl

theorem digit_head {l r : List Char} (hl : l ≠ []) (h : ∀ c ∈ l, c.isDigit = true) :
    (l ++ r).head? ≠ some '+' ∧ (l ++ r).head? ≠ some '-' := by
  cases l with
  | nil => exact absurd rfl hl
  | cons c l =>
    have hc := h c (by simp)
    simp only [List.cons_append, List.head?_cons, ne_eq, Option.some.injEq]
    constructor <;> (rintro rfl; exact absurd hc (by decide))

theorem signed_iff {l : List Char} {i : ℤ} : signed l = some i ↔ IntText l i := by
  constructor
  · intro h
    obtain ⟨t, k, hs, hl, hk⟩ := sign_spec l
    unfold signed at h
    rcases hsl : sign l with ⟨neg, r⟩
    rw [hsl] at h hl hk
    simp only at h hl hk
    by_cases hc : r = [] ∨ r.any (fun c => !c.isDigit) = true
    · rw [if_pos hc] at h; cases h
    · rw [if_neg hc] at h
      rw [not_or] at hc
      have hd : ∀ c ∈ r, c.isDigit = true := by
        intro c hcr
        by_contra hn
        exact hc.2 (List.any_eq_true.mpr ⟨c, hcr, by simp [hn]⟩)
      refine ⟨t, k, r, value r, hl, hs, hc.1, digits_iff.mpr ⟨hd, rfl⟩, ?_⟩
      simp only [Option.some.injEq] at h
      rw [← h, hk]
      cases neg <;> simp
  · rintro ⟨t, k, r, n, rfl, hs, hne, hd, rfl⟩
    obtain ⟨hd', rfl⟩ := digits_iff.mp hd
    have hh := digit_head (r := []) hne hd'
    rw [List.append_nil] at hh
    unfold signed
    rw [sign_of hs hh]
    have hc : ¬(r = [] ∨ r.any (fun c => !c.isDigit) = true) := by
      rw [not_or]
      refine ⟨hne, fun h => ?_⟩
      obtain ⟨c, hc, hn⟩ := List.any_eq_true.mp h
      simp [hd' c hc] at hn
    show (if _ then _ else _) = _
    rw [if_neg hc]
    cases hs <;> simp

/-! ## numbers with a fractional part -/

theorem exponent_iff {l : List Char} {e : ℤ} : exponent l = some e ↔ Exponent l e := by
  constructor
  · intro h
    cases l with
    | nil => cases h; exact .none
    | cons c r =>
      change (if _ then _ else _) = _ at h
      by_cases hc : c = 'e' ∨ c = 'E'
      · rw [if_pos hc] at h; exact .exp hc (signed_iff.mp h)
      · rw [if_neg hc] at h; cases h
  · intro h
    cases h with
    | none => rfl
    | @exp c l e hc hi =>
      show (if _ then _ else _) = _
      rw [if_pos hc]; exact signed_iff.mpr hi

/-- `l` and then something that is not a digit -/
theorem takeWhile_digits {l r : List Char} (h : ∀ c ∈ l, c.isDigit = true) (hr : ∀ c, r.head? = some c → c.isDigit = false) :
    (l ++ r).takeWhile Char.isDigit = l ∧ (l ++ r).dropWhile Char.isDigit = r := by
  induction l with
  | nil =>
    cases r with
    | nil => exact ⟨rfl, rfl⟩
    | cons c r =>
      have := hr c rfl
      simp [this]
  | cons c l ih =>
    have hc := h c (by simp)
    have := ih fun x hx => h x (by simp [hx])
    simp [hc, this]

theorem exponent_head {x : List Char} {e : ℤ} (h : Exponent x e) : ∀ c, x.head? = some c → c = 'e' ∨ c = 'E' := by
  intro c hc
  cases h with
  | none => cases hc
  | exp hh _ => simp only [List.head?_cons, Option.some.injEq] at hc; subst hc; exact hh

theorem takeWhile_all (l : List Char) : ∀ c ∈ l.takeWhile Char.isDigit, c.isDigit = true := by
  intro c hc
  exact (List.all_eq_true.mp (List.all_takeWhile (p := Char.isDigit) (l := l))) c hc

theorem readFloat_iff {s : String} {y : ℚ} : readFloat s = some y ↔ ∃ v, FloatText s.toList v ∧ fl v = some y := by
  constructor
  · intro h
    unfold readFloat at h
    rw [Option.bind_eq_some_iff] at h
    obtain ⟨⟨m, e⟩, hp, hf⟩ := h
    simp only at hf
    refine ⟨_, ?_, hf⟩
    obtain ⟨t, k, hs, hl, hk⟩ := sign_spec s.toList
    unfold parseFloat at hp
    rcases hsl : sign s.toList with ⟨neg, r⟩
    rw [hsl] at hp hl hk
    simp only at hp hl hk
    have main : ∀ p f x, r.dropWhile Char.isDigit = p ++ x → Fraction p f → (∀ c ∈ f, c.isDigit = true) →
        (if r.takeWhile Char.isDigit = [] ∧ f = [] then none else (exponent x).map fun (e : ℤ) =>
          ((if neg then -(value (r.takeWhile Char.isDigit ++ f) : ℤ) else value (r.takeWhile Char.isDigit ++ f) : ℤ), e - (f.length : ℤ))) = some (m, e) →
        FloatText s.toList (m * 10 ^ e) := by
      intro p f x hx hpf hfd h
      by_cases hc : r.takeWhile Char.isDigit = [] ∧ f = []
      · rw [if_pos hc] at h; cases h
      rw [if_neg hc, Option.map_eq_some_iff] at h
      obtain ⟨e', he, h⟩ := h
      simp only [Prod.mk.injEq] at h
      obtain ⟨rfl, rfl⟩ := h
      refine ⟨t, k, r.takeWhile Char.isDigit, p, f, value (r.takeWhile Char.isDigit ++ f), x, e', ?_, hs, hpf, ?_, ?_, exponent_iff.mp he, ?_⟩
      · rw [hl, List.append_assoc, List.append_assoc, ← hx, List.takeWhile_append_dropWhile]
      · intro h0; exact hc (List.append_eq_nil_iff.mp h0)
      · refine digits_iff.mpr ⟨?_, rfl⟩
        intro c hc
        rcases List.mem_append.mp hc with hc | hc
        · exact takeWhile_all r c hc
        · exact hfd c hc
      · rw [zpow_sub₀ (by norm_num : (10 : ℚ) ≠ 0), zpow_natCast, hk]
        cases neg <;> · simp; ring
    rcases hd : r.dropWhile Char.isDigit with _ | ⟨c, r'⟩
    · rw [hd] at hp
      exact main [] [] [] hd .none (by simp) hp
    · have hap : afterPoint (c :: r') = if c = '.' then (r'.takeWhile Char.isDigit, r'.dropWhile Char.isDigit) else ([], c :: r') := rfl
      by_cases hc : c = '.'
      · rw [if_pos hc] at hap
        rw [hd, hap] at hp
        subst hc
        exact main ('.' :: r'.takeWhile Char.isDigit) (r'.takeWhile Char.isDigit) (r'.dropWhile Char.isDigit)
          (by rw [hd, List.cons_append, List.takeWhile_append_dropWhile]) (.point _) (takeWhile_all r') hp
      · rw [if_neg hc] at hap
        rw [hd, hap] at hp
        exact main [] [] (c :: r') hd .none (by simp) hp
  · rintro ⟨v, ⟨t, k, i, p, f, n, x, e, hs, hsg, hp, hne, hd, hx, rfl⟩, hf⟩
    obtain ⟨hd', rfl⟩ := digits_iff.mp hd
    have hi : ∀ c ∈ i, c.isDigit = true := fun c hc => hd' c (by simp [hc])
    have hfd : ∀ c ∈ f, c.isDigit = true := fun c hc => hd' c (by simp [hc])
    have hxh : ∀ c, x.head? = some c → c.isDigit = false := by
      intro c hc
      rcases exponent_head hx c hc with rfl | rfl <;> decide
    have hph : ∀ c, (p ++ x).head? = some c → c.isDigit = false := by
      intro c hc
      cases hp with
      | none => exact hxh c hc
      | point f => simp only [List.cons_append, List.head?_cons, Option.some.injEq] at hc; subst hc; decide
    have hhead : (i ++ (p ++ x)).head? ≠ some '+' ∧ (i ++ (p ++ x)).head? ≠ some '-' := by
      by_cases hi0 : i = []
      · subst hi0
        cases hp with
        | none => exact absurd rfl hne
        | point f => simp
      · exact digit_head hi0 hi
    unfold readFloat
    rw [Option.bind_eq_some_iff]
    refine ⟨(k * value (i ++ f), e - f.length), ?_, ?_⟩
    · unfold parseFloat
      rw [hs, List.append_assoc, List.append_assoc, sign_of hsg hhead]
      obtain ⟨h1, h2⟩ := takeWhile_digits hi hph
      simp only [h1, h2]
      have hkk : (if decide (k < 0) = true then -(value (i ++ f) : ℤ) else value (i ++ f)) = k * value (i ++ f) := by
        cases hsg <;> simp
      have hap : afterPoint (p ++ x) = (f, x) := by
        cases hp with
        | none =>
          cases x with
          | nil => rfl
          | cons c x =>
            show (if _ then _ else _) = _
            rw [if_neg]
            rintro rfl
            rcases exponent_head hx '.' rfl with h | h <;> exact absurd h (by decide)
        | point f =>
          obtain ⟨h3, h4⟩ := takeWhile_digits hfd hxh
          simp only [List.cons_append, afterPoint, if_true, h3, h4]
      rw [hap]
      simp only
      rw [if_neg (by rintro ⟨rfl, rfl⟩; exact hne rfl), exponent_iff.mpr hx, Option.map_some, hkk]
    · rw [← hf]
      show fl _ = _
      congr 1
      rw [zpow_sub₀ (by norm_num : (10 : ℚ) ≠ 0), zpow_natCast]
      push_cast
      ring

/-! ## text for numbers -/

theorem parseNat_eq (l : List Char) : parseNat l = value l := by
  induction l using List.reverseRecOn with
  | nil => rfl
  | append_singleton l c ih =>
    rw [value_append, ← ih]
    simp only [parseNat, List.reverse_append, List.reverse_singleton, List.singleton_append, List.map_cons, Nat.ofDigits_cons, value,
      List.foldl_cons, List.foldl_nil, List.length_singleton]
    omega

theorem value_decimalNat (n : ℕ) : value (decimalNat n) = n := by
  rw [← parseNat_eq, parse_decimalNat]

theorem digits_decimalNat (n : ℕ) : Digits (decimalNat n) n := digits_iff.mpr ⟨decimalNat_digit n, (value_decimalNat n).symm⟩

theorem length_decimalNat {n k : ℕ} (h1 : 10 ^ k ≤ n) (h2 : n < 10 ^ (k + 1)) : (decimalNat n).length = k + 1 := by
  have h0 : n ≠ 0 := by have := Nat.one_le_pow k 10 (by norm_num); omega
  unfold decimalNat
  rw [if_neg h0, List.length_map, List.length_reverse]
  exact le_antisymm ((Nat.digits_length_le_iff (by norm_num) n).mpr h2) ((Nat.lt_digits_length_iff (by norm_num) n).mpr h1)

theorem intText_decimal (i : ℤ) : IntText (decimal i) i := by
  unfold decimal
  by_cases h : i < 0
  · rw [if_pos h]
    exact ⟨_, _, _, _, rfl, .minus, decimalNat_ne _, digits_decimalNat _, by omega⟩
  · rw [if_neg h]
    exact ⟨_, _, _, _, rfl, .none, decimalNat_ne _, digits_decimalNat _, by omega⟩

theorem exponent_exponentText (e : ℤ) : Exponent (exponentText e) e := by
  refine .exp (Or.inl rfl) ?_
  have key : ∃ l, (if e.natAbs < 10 then '0' :: decimalNat e.natAbs else decimalNat e.natAbs) = l ∧ l ≠ [] ∧ Digits l e.natAbs := by
    refine ⟨_, rfl, ?_, ?_⟩
    · split
      · simp
      · exact decimalNat_ne _
    · split
      · refine digits_iff.mpr ⟨?_, ?_⟩
        · intro c hc
          rcases List.mem_cons.mp hc with rfl | hc
          · decide
          · exact decimalNat_digit _ c hc
        · have : '0' :: decimalNat e.natAbs = ['0'] ++ decimalNat e.natAbs := rfl
          rw [this, value_append, value_decimalNat]
          simp [value]
      · exact digits_decimalNat _
  obtain ⟨l, hl, hne, hd⟩ := key
  rw [hl]
  by_cases h : e < 0
  · rw [if_pos h]
    exact ⟨_, _, _, _, rfl, .minus, hne, hd, by omega⟩
  · rw [if_neg h]
    exact ⟨_, _, _, _, rfl, .plus, hne, hd, by omega⟩

theorem stripZeros_spec (l : List Char) : ∃ k, l = stripZeros l ++ List.replicate k '0' := by
  unfold stripZeros
  refine ⟨(l.reverse.takeWhile (· == '0')).length, ?_⟩
  have h1 : l.reverse.takeWhile (· == '0') = List.replicate (l.reverse.takeWhile (· == '0')).length '0' := by
    rw [List.eq_replicate_iff]
    refine ⟨rfl, fun c hc => ?_⟩
    have := List.all_eq_true.mp (List.all_takeWhile (p := (· == '0')) (l := l.reverse)) c hc
    simpa using this
  have h2 := List.takeWhile_append_dropWhile (p := (· == '0')) (l := l.reverse)
  have h3 := congrArg List.reverse h2
  rw [List.reverse_append, List.reverse_reverse] at h3
  conv_lhs => rw [← h3, h1]
  rw [List.reverse_replicate]

theorem value_zeros (k : ℕ) : value (List.replicate k '0') = 0 := by
  induction k with
  | zero => rfl
  | succ k ih =>
    rw [List.replicate_succ', value_append, ih]
    simp [value]

/-- the text for a number with the digits `i` before and `f` after the point -/
theorem floatText_of {t i f x : List Char} {k e : ℤ} (ht : Sign t k) (hi : i ≠ []) (hid : ∀ c ∈ i, c.isDigit = true)
    (hfd : ∀ c ∈ f, c.isDigit = true) (hx : Exponent x e) :
    FloatText (t ++ i ++ fraction f ++ x) (k * (value (i ++ f) / 10 ^ f.length) * 10 ^ e) := by
  obtain ⟨z, hz⟩ := stripZeros_spec f
  have hsd : ∀ c ∈ stripZeros f, c.isDigit = true := by
    intro c hc
    exact hfd c (by rw [hz]; simp [hc])
  have hfr : Fraction (fraction f) (stripZeros f) := by
    unfold fraction
    by_cases h : stripZeros f = []
    · rw [if_pos h, h]; exact .none
    · rw [if_neg h]; exact .point _
  refine ⟨t, k, i, fraction f, stripZeros f, value (i ++ stripZeros f), x, e, rfl, ht, hfr, ?_, ?_, hx, ?_⟩
  · intro h; exact hi (List.append_eq_nil_iff.mp h).1
  · refine digits_iff.mpr ⟨?_, rfl⟩
    intro c hc
    rcases List.mem_append.mp hc with hc | hc
    · exact hid c hc
    · exact hsd c hc
  · congr 2
    have hv : value (i ++ f) = value (i ++ stripZeros f) * 10 ^ z := by
      conv_lhs => rw [hz, ← List.append_assoc, value_append, value_zeros, List.length_replicate]
      rw [add_zero]
    have hl : f.length = (stripZeros f).length + z := by
      conv_lhs => rw [hz]
      rw [List.length_append, List.length_replicate]
    rw [hv, hl, pow_add]
    push_cast
    field_simp

/-! ## 17 digits suffice -/

/-- values of type `double` are not closer to each other -/
theorem gap {a z : ℚ} (ha : IsFormat a) (h0 : 0 < a) (hz : IsFormat z) (hne : z ≠ a) : a / 2 ^ 53 ≤ |z - a| := by
  have hlt := lt_spacing a
  rw [abs_of_pos h0] at hlt
  have hsp : a / 2 ^ 53 ≤ 2 ^ spacing a := by
    rw [div_le_iff₀ (by norm_num)]; linarith
  rcases lt_or_gt_of_ne hne with h | h
  · rw [abs_sub_comm, abs_of_pos (by linarith)]
    by_cases hz0 : z ≤ 0
    · have : a / 2 ^ 53 ≤ a := div_le_self h0.le (by norm_num)
      linarith
    push Not at hz0
    have g1 := spacing_gap hz ha hz0 h
    by_cases hs : spacing z = spacing a
    · rw [hs] at g1; linarith
    have hs' : spacing z < spacing a := lt_of_le_of_ne (spacing_mono hz0 h.le) hs
    have hsm : spacing a ≠ -1074 := by
      have : -1074 ≤ spacing z := le_max_right _ _
      omega
    have hlog : spacing a = Int.log 2 |a| - 52 := by
      unfold spacing at hsm ⊢
      rcases max_choice (Int.log 2 |a| - 52) (-1074) with h | h
      · exact h
      · exact absurd h hsm
    have hsa : -1074 < spacing a := lt_of_le_of_ne (le_max_right _ _) (Ne.symm hsm)
    -- the power of two
    have hP : IsFormat ((2 : ℚ) ^ (spacing a + 52)) := isFormat_two _ (by omega)
    have hPpos := two_pos (spacing a + 52)
    have hPe : (2 : ℚ) ^ (spacing a + 52) = 2 ^ 52 * 2 ^ spacing a := by
      rw [zpow_add₀ (by norm_num)]; norm_num; ring
    have hPa : (2 : ℚ) ^ (spacing a + 52) ≤ a := by
      have := spacing_le h0.ne' hsm
      rw [abs_of_pos h0] at this
      rw [hPe]; exact this
    have hsP : spacing ((2 : ℚ) ^ (spacing a + 52)) = spacing a :=
      spacing_eq hsa.le (by rw [abs_of_pos hPpos, hPe]) (by
        rw [abs_of_pos hPpos, hPe]; have := two_pos (spacing a); nlinarith)
    have hzP : z < 2 ^ (spacing a + 52) := by
      by_contra hc
      push Not at hc
      have := spacing_mono hPpos hc
      rw [hsP] at this; omega
    rcases lt_or_eq_of_le hPa with hPa | hPa
    · have g2 := spacing_gap hP ha hPpos hPa
      rw [hsP] at g2
      linarith
    · -- the number before a power of two
      have hQ : IsFormat (((2 ^ 53 - 1 : ℤ) : ℚ) * 2 ^ (spacing a - 1)) := ⟨2 ^ 53 - 1, _, by norm_num, by omega, rfl⟩
      have h2 : (2 : ℚ) ^ spacing a = 2 * 2 ^ (spacing a - 1) := by
        rw [zpow_sub₀ (by norm_num)]; norm_num; ring
      have hh := two_pos (spacing a - 1)
      rw [hPe, h2] at hPa
      have hQe : ((2 ^ 53 - 1 : ℤ) : ℚ) * 2 ^ (spacing a - 1) = a - 2 ^ (spacing a - 1) := by
        push_cast; linarith
      have hQpos : (0 : ℚ) < ((2 ^ 53 - 1 : ℤ) : ℚ) * 2 ^ (spacing a - 1) := by
        apply mul_pos _ hh; norm_num
      have hQs : spacing (((2 ^ 53 - 1 : ℤ) : ℚ) * 2 ^ (spacing a - 1)) = spacing a - 1 :=
        spacing_eq (by omega) (by rw [abs_of_pos hQpos]; push_cast; nlinarith) (by rw [abs_of_pos hQpos]; push_cast; nlinarith)
      have hae : a / 2 ^ 53 = 2 ^ (spacing a - 1) := by
        rw [div_eq_iff (by norm_num)]; linarith
      rw [hae]
      by_contra hc
      push Not at hc
      have hQz : ((2 ^ 53 - 1 : ℤ) : ℚ) * 2 ^ (spacing a - 1) < z := by rw [hQe]; linarith
      have := spacing_gap hQ hz hQpos hQz
      rw [hQs, hQe] at this
      linarith
  · rw [abs_of_pos (by linarith)]
    have := spacing_gap ha hz h0 h
    linarith

/-- a number close to a value of type `double` is rounded to it -/
theorem rnd_close {a v : ℚ} (ha : IsFormat a) (h0 : 0 < a) (h : |v - a| < a / 2 ^ 54) : rnd v = a := by
  refine rnd_eq ha fun z hz hne => ?_
  have g := gap ha h0 hz hne
  have h2 : a / 2 ^ 53 = 2 * (a / 2 ^ 54) := by ring
  have h3 : |z - a| ≤ |z - v| + |v - a| := abs_sub_le z v a
  rw [abs_sub_comm a v]
  linarith

theorem significant_spec {a : ℚ} (h0 : 0 < a) : 10 ^ 16 ≤ (significant a).1 ∧ (significant a).1 < 10 ^ 17 ∧
    |((significant a).1 : ℚ) * 10 ^ ((significant a).2 - 16) - a| < a / 2 ^ 54 := by
  have h10 : (0 : ℚ) < 10 ^ (Int.log 10 a - 16) := zpow_pos (by norm_num) _
  have hlo : (10 : ℚ) ^ Int.log 10 a ≤ a := by
    have := Int.zpow_log_le_self (b := 10) (by norm_num) h0; exact_mod_cast this
  have hhi : a < (10 : ℚ) ^ (Int.log 10 a + 1) := by
    have := Int.lt_zpow_succ_log_self (b := 10) (by norm_num) a; exact_mod_cast this
  have he1 : (10 : ℚ) ^ Int.log 10 a = 10 ^ 16 * 10 ^ (Int.log 10 a - 16) := by
    rw [zpow_sub₀ (by norm_num)]; norm_num; ring
  have he2 : (10 : ℚ) ^ (Int.log 10 a + 1) = 10 ^ 17 * 10 ^ (Int.log 10 a - 16) := by
    rw [zpow_sub₀ (by norm_num), zpow_add₀ (by norm_num)]; norm_num; ring
  have hq1 : 10 ^ 16 ≤ a / 10 ^ (Int.log 10 a - 16) := by rw [le_div_iff₀ h10, ← he1]; exact hlo
  have hq2 : a / 10 ^ (Int.log 10 a - 16) < 10 ^ 17 := by rw [div_lt_iff₀ h10, ← he2]; exact hhi
  have hr := roundInt_half (a / 10 ^ (Int.log 10 a - 16))
  rw [abs_le] at hr
  have hm1 : (10 ^ 16 : ℤ) ≤ roundInt (a / 10 ^ (Int.log 10 a - 16)) := by
    have : ((10 ^ 16 - 1 : ℤ) : ℚ) < roundInt (a / 10 ^ (Int.log 10 a - 16)) := by push_cast; linarith
    have := Int.cast_lt.mp this
    omega
  have hm2 : roundInt (a / 10 ^ (Int.log 10 a - 16)) ≤ 10 ^ 17 := by
    have : (roundInt (a / 10 ^ (Int.log 10 a - 16)) : ℚ) < ((10 ^ 17 + 1 : ℤ) : ℚ) := by push_cast; linarith
    have := Int.cast_lt.mp this
    omega
  have hnat : ((roundInt (a / 10 ^ (Int.log 10 a - 16))).toNat : ℚ) = roundInt (a / 10 ^ (Int.log 10 a - 16)) := by
    have : (((roundInt (a / 10 ^ (Int.log 10 a - 16))).toNat : ℤ) : ℚ) = roundInt (a / 10 ^ (Int.log 10 a - 16)) := by
      rw [Int.toNat_of_nonneg (by omega)]
    exact_mod_cast this
  have hclose : |((roundInt (a / 10 ^ (Int.log 10 a - 16))).toNat : ℚ) * 10 ^ (Int.log 10 a - 16) - a| < a / 2 ^ 54 := by
    rw [hnat]
    have h1 : (roundInt (a / 10 ^ (Int.log 10 a - 16)) : ℚ) * 10 ^ (Int.log 10 a - 16) - a =
        (roundInt (a / 10 ^ (Int.log 10 a - 16)) - a / 10 ^ (Int.log 10 a - 16)) * 10 ^ (Int.log 10 a - 16) := by
      field_simp
    have h2 := roundInt_half (a / 10 ^ (Int.log 10 a - 16))
    rw [h1, abs_mul, abs_of_pos h10]
    have h3 : (10 : ℚ) ^ (Int.log 10 a - 16) ≤ a / 10 ^ 16 := by rw [le_div_iff₀ (by norm_num)]; linarith
    have h4 : a / 10 ^ 16 / 2 < a / 2 ^ 54 := by
      rw [div_div, div_lt_div_iff_of_pos_left h0 (by norm_num) (by norm_num)]; norm_num
    nlinarith
  unfold significant
  simp only
  by_cases hc : (roundInt (a / 10 ^ (Int.log 10 a - 16))).toNat = 10 ^ 17
  · rw [if_pos hc]
    refine ⟨le_refl _, by norm_num, ?_⟩
    rw [hc] at hclose
    have : ((10 ^ 16 : ℕ) : ℚ) * 10 ^ (Int.log 10 a + 1 - 16) = ((10 ^ 17 : ℕ) : ℚ) * 10 ^ (Int.log 10 a - 16) := by
      rw [show Int.log 10 a + 1 - 16 = (Int.log 10 a - 16) + 1 by ring, zpow_add₀ (by norm_num)]
      push_cast; ring
    show |((10 ^ 16 : ℕ) : ℚ) * 10 ^ (Int.log 10 a + 1 - 16) - a| < _
    rw [this]; exact hclose
  · rw [if_neg hc]
    refine ⟨by omega, by omega, hclose⟩

theorem showPos_text {t : List Char} {k : ℤ} (ht : Sign t k) {a : ℚ} (h0 : 0 < a) :
    FloatText (t ++ showPos a) (k * (((significant a).1 : ℚ) * 10 ^ ((significant a).2 - 16))) := by
  obtain ⟨h1, h2, -⟩ := significant_spec h0
  unfold showPos
  rcases hs : significant a with ⟨m, e⟩
  rw [hs] at h1 h2
  simp only at h1 h2 ⊢
  have hlen : (decimalNat m).length = 17 := length_decimalNat (k := 16) h1 h2
  have hdig := decimalNat_digit m
  have htk : ∀ j, ∀ c ∈ (decimalNat m).take j, c.isDigit = true := fun j c hc => hdig c (List.mem_of_mem_take hc)
  have hdr : ∀ j, ∀ c ∈ (decimalNat m).drop j, c.isDigit = true := fun j c hc => hdig c (List.mem_of_mem_drop hc)
  have hne : ∀ j, (decimalNat m).take (j + 1) ≠ [] := by
    intro j h
    have := congrArg List.length h
    rw [List.length_take, hlen] at this
    simp at this
  have hten : (10 : ℚ) ≠ 0 := by norm_num
  by_cases hc : e < -4 ∨ 17 ≤ e
  · rw [if_pos hc]
    have := floatText_of ht (hne 0) (htk 1) (hdr 1) (exponent_exponentText e)
    rw [List.take_append_drop, value_decimalNat, List.length_drop, hlen] at this
    rw [show t ++ ((decimalNat m).take 1 ++ fraction ((decimalNat m).drop 1) ++ exponentText e) =
      t ++ (decimalNat m).take 1 ++ fraction ((decimalNat m).drop 1) ++ exponentText e by simp]
    convert this using 1
    rw [zpow_sub₀ hten]
    norm_num
    ring
  rw [if_neg hc]
  rw [not_or] at hc
  by_cases hn : e < 0
  · rw [if_pos hn]
    have hd : ∀ c ∈ List.replicate (-e - 1).toNat '0' ++ decimalNat m, c.isDigit = true := by
      intro c hc
      rcases List.mem_append.mp hc with hc | hc
      · rw [List.eq_of_mem_replicate hc]; decide
      · exact hdig c hc
    have := floatText_of ht (i := ['0']) (by simp) (by simp) hd .none
    have hv : value (['0'] ++ (List.replicate (-e - 1).toNat '0' ++ decimalNat m)) = m := by
      rw [value_append, value_append, value_zeros, value_decimalNat]
      simp [value]
    rw [hv, List.length_append, List.length_replicate, hlen] at this
    rw [show t ++ '0' :: fraction (List.replicate (-e - 1).toNat '0' ++ decimalNat m) =
      t ++ ['0'] ++ fraction (List.replicate (-e - 1).toNat '0' ++ decimalNat m) ++ [] by simp]
    convert this using 1
    have : e - 16 = -(((-e - 1).toNat + 17 : ℕ) : ℤ) := by omega
    rw [this, zpow_neg, zpow_natCast]
    simp only [zpow_zero, mul_one]
    rfl
  · rw [if_neg hn]
    have := floatText_of ht (hne e.toNat) (htk (e.toNat + 1)) (hdr (e.toNat + 1)) .none
    rw [List.take_append_drop, value_decimalNat, List.length_drop, hlen] at this
    rw [show t ++ ((decimalNat m).take (e.toNat + 1) ++ fraction ((decimalNat m).drop (e.toNat + 1))) =
      t ++ (decimalNat m).take (e.toNat + 1) ++ fraction ((decimalNat m).drop (e.toNat + 1)) ++ [] by simp]
    convert this using 1
    have : e - 16 = -((17 - (e.toNat + 1) : ℕ) : ℤ) := by omega
    rw [this, zpow_neg, zpow_natCast]
    simp only [zpow_zero, mul_one]
    rfl

end Schnek.Lemma.NumberText
