import Verif.Lemma.NumberText
import Verif.Lemma.LexerLayout
import Verif.Spec.DeckText
import Verif.Props.Scanner

/-!
# Numbers as text (C145)
-/

namespace Schnek.Props

open Schnek.NumberText Schnek.Spec.NumberText Schnek.Lemma.NumberText Schnek.Deck

/-! ## texts that are numbers -/

/-- C145. A text is converted to an integer if it consists of digits, possibly after a sign, and the number is in the range of `int`; the
result is this number. Every other text is rejected. -/
theorem C145_read_int (s : String) (i : ℤ) : readInt s = some i ↔ IntText s.toList i ∧ -2 ^ 31 ≤ i ∧ i < 2 ^ 31 := by
  unfold readInt
  rw [Option.bind_eq_some_iff]
  constructor
  · rintro ⟨j, hj, h⟩
    unfold checkInt at h
    split at h
    · rename_i hr; cases h; exact ⟨signed_iff.mp hj, hr⟩
    · cases h
  · rintro ⟨h, hr⟩
    exact ⟨i, signed_iff.mpr h, if_pos hr⟩

/-- C145. A text that is converted to a number of type `double` is a decimal number, with or without a point and an exponent; the result is the value of
type `double` that is closest to this number. -/
theorem C145_read_float (s : String) (y : ℚ) (h : readFloat s = some y) : ∃ v, FloatText s.toList v ∧ Binary64.IsDouble y ∧
    ∀ z, Binary64.IsDouble z → |y - v| ≤ |z - v| := by
  obtain ⟨v, hv, hf⟩ := readFloat_iff.mp h
  have hy := Lemma.Binary64.fl_eq hf
  refine ⟨v, hv, ⟨?_, ?_⟩, fun z hz => ?_⟩
  · rw [hy]; exact Lemma.Binary64.rnd_format v
  · unfold Binary64.fl at hf
    split at hf
    · rename_i hlt; rw [hy]; exact hlt
    · cases hf
  · rw [hy]; exact Lemma.Binary64.rnd_near v hz.1

/-- C145. Every decimal number that is not too large is accepted. -/
theorem C145_accepts_float (s : String) (v : ℚ) (hs : FloatText s.toList v) (hv : |v| ≤ 2 ^ (1023 : ℤ)) : ∃ y, readFloat s = some y :=
  ⟨_, readFloat_iff.mpr ⟨v, hs, Lemma.Binary64.fl_some hv⟩⟩

/-- `-12` and `3.056` -/
example : readInt "-12" = some (-12) ∧ readInt "nonumber" = none ∧ readInt "2147483648" = none ∧ readFloat "2.5e-1" = some (1 / 4) ∧
    readFloat "." = none ∧ readFloat "+.5" = some (1 / 2) ∧ readFloat "3." = some 3 ∧ readFloat "1e" = none ∧ readFloat "1 " = none := by
  decide +kernel

example : FloatText "2.5e-1".toList (1 / 4) :=
  ⟨[], 1, ['2'], ['.', '5'], ['5'], 25, ['e', '-', '1'], -1, rfl, .none, .point _, by simp,
    digits_iff.mpr ⟨by decide, by decide⟩, .exp (Or.inl rfl) ⟨['-'], -1, ['1'], 1, rfl, .minus, by simp, digits_iff.mpr ⟨by decide, by decide⟩, rfl⟩,
    by norm_num⟩

/-! ## there and back -/

/-- C145. A number of type `int` that is written as text and read again is the same number. -/
theorem C145_int_again (i : ℤ) (h1 : -2 ^ 31 ≤ i) (h2 : i < 2 ^ 31) : readInt (showInt i) = some i := by
  rw [C145_read_int]
  refine ⟨?_, h1, h2⟩
  unfold showInt
  rw [String.toList_ofList]
  exact intText_decimal i

/-- C145. A number of type `double` that is written as text and read again is the same number. -/
theorem C145_float_again (x : ℚ) (h : Binary64.IsDouble x) : readFloat (showFloat x) = some x := by
  rw [readFloat_iff]
  unfold showFloat
  rw [String.toList_ofList]
  by_cases h0 : x = 0
  · subst h0
    rw [if_pos rfl]
    refine ⟨0, ⟨[], 1, ['0'], [], [], 0, [], 0, rfl, .none, .none, by simp, digits_iff.mpr ⟨by decide, by decide⟩, .none, by norm_num⟩, ?_⟩
    rw [Lemma.Binary64.fl_some (by simp), Lemma.Binary64.rnd_zero]
  rw [if_neg h0]
  have hfl : ∀ v, Binary64.rnd v = x → Binary64.fl v = some x := by
    intro v hv
    unfold Binary64.fl
    rw [hv, if_pos h.2]
  by_cases hn : x < 0
  · rw [if_pos hn]
    have hpos : 0 < -x := by linarith
    refine ⟨_, showPos_text .minus hpos, hfl _ ?_⟩
    obtain ⟨-, -, hc⟩ := significant_spec hpos
    refine Lemma.Binary64.rnd_eq h.1 fun z hz hne => ?_
    have g := gap (Lemma.Binary64.IsFormat.neg h.1) hpos (Lemma.Binary64.IsFormat.neg hz) (fun he => hne (neg_injective he))
    generalize ((significant (-x)).1 : ℚ) * 10 ^ ((significant (-x)).2 - 16) = v at hc ⊢
    have e1 : |-z - -x| = |z - x| := by rw [← abs_neg]; congr 1; ring
    have e2 : |v - -x| = |x - ((-1 : ℤ) : ℚ) * v| := by congr 1; push_cast; ring
    have e3 : |z - x| ≤ |z - ((-1 : ℤ) : ℚ) * v| + |((-1 : ℤ) : ℚ) * v - x| := abs_sub_le _ _ _
    rw [abs_sub_comm (((-1 : ℤ) : ℚ) * v) x, ← e2] at e3
    rw [← e2]
    rw [e1] at g
    have h2 : -x / 2 ^ 53 = 2 * (-x / 2 ^ 54) := by ring
    linarith
  · rw [if_neg hn]
    have hpos : 0 < x := lt_of_le_of_ne (not_lt.mp hn) (Ne.symm h0)
    refine ⟨_, showPos_text .none hpos, hfl _ ?_⟩
    obtain ⟨-, -, hc⟩ := significant_spec hpos
    rw [Int.cast_one, one_mul]
    exact rnd_close h.1 hpos hc

/-- 0.1, as `double`, and a large and a small number -/
example : showFloat (3602879701896397 / 2 ^ 55) = "0.10000000000000001" ∧ showFloat (-1 / 1024) = "-0.0009765625" ∧
    showFloat (2 ^ 80) = "1.2089258196146292e+24" ∧ showFloat 12 = "12" ∧ showFloat (1 / 2 ^ 20) = "9.5367431640625e-07" := by
  decide +kernel

/-- C145 for the conversions of expressions: a variable of type string that gets the value of a number can be assigned to a variable of the type of this number. -/
theorem C145_convert_again (O : FloatOps ℚ) (v : Val ℚ) (h : ∀ i, v = .int i → -2 ^ 31 ≤ i ∧ i < 2 ^ 31)
    (hd : ∀ x, v = .float x → Binary64.IsDouble x) : (convert (withText O) .str v).bind (convert (withText O) v.ty) = some v := by
  cases v with
  | int i =>
    show (readInt (showInt i)).map Val.int = _
    rw [C145_int_again i (h i rfl).1 (h i rfl).2]; rfl
  | float x =>
    show (readFloat (showFloat x)).map Val.float = _
    rw [C145_float_again x (hd x rfl)]; rfl
  | str s => rfl

/-! ## numbers put together from pieces -/

/-- C145, the manual (error-handling.rst): after `string a = "12"; string b = "34"; size = a+b;` the value of `size` is 1234; and so with any digits. -/
theorem C145_concatenation (O : FloatOps ℚ) (a b : String) (m n : ℕ) (ha : a.toList ≠ []) (hm : Digits a.toList m) (hn : Digits b.toList n)
    (hr : m * 10 ^ b.length + n < 2 ^ 31) :
    (BinOp.eval (withText O) .add (.str a) (.str b)).bind (convert (withText O) .int) = some (.int (m * 10 ^ b.length + n)) := by
  show (readInt (a ++ b)).map Val.int = _
  have : readInt (a ++ b) = some ((m * 10 ^ b.length + n : ℕ) : ℤ) := by
    rw [C145_read_int]
    refine ⟨⟨[], 1, a.toList ++ b.toList, m * 10 ^ b.length + n, by simp, .none, by simp [ha], ?_, by simp⟩, by omega, by exact_mod_cast hr⟩
    obtain ⟨h1, rfl⟩ := digits_iff.mp hm
    obtain ⟨h2, rfl⟩ := digits_iff.mp hn
    refine digits_iff.mpr ⟨?_, ?_⟩
    · intro c hc
      rcases List.mem_append.mp hc with hc | hc
      · exact h1 c hc
      · exact h2 c hc
    · rw [value_append, String.length_toList]
  rw [this]; simp

example : (BinOp.eval (withText ratOps) .add (.str "12") (.str "34")).bind (convert (withText ratOps) .int) = some (.int 1234) :=
  C145_concatenation ratOps "12" "34" 12 34 (by decide) (digits_iff.mpr ⟨by decide, by decide⟩) (digits_iff.mpr ⟨by decide, by decide⟩)
    (by decide)

/-! ## literals in a setup file -/

open Schnek.Scanner Schnek.Spec Schnek.Spec.Lexer Schnek.Lemma.Lexer Schnek.Lemma.Scanner

/-- a token comes from a pattern -/
theorem token_pattern {s : List Byte} {L : ℕ} {toks : List Tok} {e : Ending} (h : Lex s L toks e) : ∀ t ∈ toks,
    ∃ i w line, PatMatches i w ∧ t ∈ emitted line w (useOf i) := by
  induction h with
  | @token s line i n toks e hl _ _ ih =>
    intro t ht
    rcases List.mem_append.mp ht with ht | ht
    · exact ⟨i, _, _, hl.here, ht⟩
    · exact ih t ht
  | comment _ _ _ _ ih => exact ih
  | _ => intro t ht; cases ht

/-- the pattern of a number -/
theorem number_pattern {s : List Byte} {L : ℕ} {toks : List Tok} {e : Ending} (h : Lex s L toks e) {t : Tok} (ht : t ∈ toks) :
    (t.kind = .integer → Matches (plus digit) t.text) ∧ (t.kind = .float → Matches (.cat (.star digit) (.alt floatDec floatExp)) t.text) := by
  obtain ⟨i, w, line, ⟨r, u, hi, hm⟩, he⟩ := token_pattern h t ht
  have hu : useOf i = u := by unfold useOf; rw [hi]; rfl
  rw [hu] at he
  have key : ∀ p ∈ patterns, (p.2 = .tokenText .integer → p.1 = plus digit) ∧
      (p.2 = .tokenText .float → p.1 = .cat (.star digit) (.alt floatDec floatExp)) ∧
      (p.2 ≠ .token .integer ∧ p.2 ≠ .token .float ∧ p.2 ≠ .quoted .integer ∧ p.2 ≠ .quoted .float) := by decide
  obtain ⟨k1, k2, k3, k4, k5, k6⟩ := key (r, u) (List.mem_of_getElem? hi)
  cases u with
  | token k =>
    rw [emitted, List.mem_singleton] at he
    subst he
    exact ⟨fun h => absurd (congrArg Use.token h) k3, fun h => absurd (congrArg Use.token h) k4⟩
  | tokenText k =>
    rw [emitted, List.mem_singleton] at he
    subst he
    refine ⟨fun h => ?_, fun h => ?_⟩
    · have := k1 (congrArg Use.tokenText h); simp only at this; rw [← this]; exact hm
    · have := k2 (congrArg Use.tokenText h); simp only at this; rw [← this]; exact hm
  | quoted k =>
    rw [emitted, List.mem_singleton] at he
    subst he
    exact ⟨fun h => absurd (congrArg Use.quoted h) k5, fun h => absurd (congrArg Use.quoted h) k6⟩
  | skip => cases he
  | comment => cases he

/-- the characters of bytes -/
def chars (l : List Byte) : List Char := l.map fun b => Char.ofNat b.val

theorem byte_digit : ∀ b : Byte, inRanges b [(48, 57)] = (Char.ofNat b.val).isDigit := by decide +kernel

theorem chars_digits {w : List Byte} (h : ∀ b ∈ w, inRanges b [(48, 57)] = true) : ∀ c ∈ chars w, c.isDigit = true := by
  intro c hc
  obtain ⟨b, hb, rfl⟩ := List.mem_map.mp hc
  rw [← byte_digit]; exact h b hb

theorem plus_digit {w : List Byte} (h : Matches (plus digit) w) : w ≠ [] ∧ ∀ b ∈ w, inRanges b [(48, 57)] = true := by
  obtain ⟨u, v, rfl, hu, hv⟩ := matches_cat.mp h
  obtain ⟨b, rfl, hb⟩ := matches_cls.mp hu
  refine ⟨by simp, fun c hc => ?_⟩
  rcases List.mem_append.mp hc with hc | hc
  · rw [List.mem_singleton.mp hc]; exact hb
  · exact matches_star_cls.mp hv c hc

/-- C145. A literal of type integer in any setup file consists of digits. It stands for the number with these digits; if that is too large the
file is not accepted. -/
theorem C145_integer_literal (O : FloatOps ℚ) {file : List Byte} {line : ℕ} {toks : List Tok} {e : Ending} (h : Lex file line toks e) {t : Tok}
    (ht : t ∈ toks) (hk : t.kind = .integer) : ∃ n, t.text ≠ [] ∧ Digits (chars t.text) n ∧
      meaning (withText O) t = if n < 2 ^ 31 then some (.expr (.lit (.int n))) else none := by
  obtain ⟨hne, hd⟩ := plus_digit ((number_pattern h ht).1 hk)
  have hD : Digits (chars t.text) (value (chars t.text)) := digits_iff.mpr ⟨chars_digits hd, rfl⟩
  refine ⟨_, hne, hD, ?_⟩
  have htl : (textOf t.text).toList = chars t.text := String.toList_ofList
  have hI : ∀ i, IntText (chars t.text) i ↔ i = value (chars t.text) := by
    intro i
    have h1 : IntText (chars t.text) (value (chars t.text)) :=
      ⟨[], 1, chars t.text, _, rfl, .none, by simpa [chars] using hne, hD, by simp⟩
    constructor
    · intro hi
      have := signed_iff.mpr hi
      rw [signed_iff.mpr h1] at this
      exact (Option.some.inj this).symm
    · rintro rfl; exact h1
  unfold meaning
  rw [hk]
  show (readInt (textOf t.text)).map _ = _
  by_cases hlt : value (chars t.text) < 2 ^ 31
  · rw [if_pos hlt, (C145_read_int _ _).mpr ⟨by rw [htl]; exact (hI _).mpr rfl, by omega, by exact_mod_cast hlt⟩]; rfl
  · rw [if_neg hlt]
    rcases hr : readInt (textOf t.text) with _ | i
    · rfl
    · obtain ⟨h1, -, h3⟩ := (C145_read_int _ _).mp hr
      rw [htl, hI] at h1
      subst h1
      exact absurd (by exact_mod_cast h3) hlt

/-- before an exponent there is a digit -/
def HasDigit (text : List Byte) : Prop := ∃ u b w, text = u ++ b :: w ∧ inRanges b [(48, 57)] = true ∧ ∀ c ∈ u, c ≠ 69 ∧ c ≠ 101

/-- an exponent -/
theorem exponent_literal {w : List Byte} (h : Matches floatExp w) : ∃ b x, w = b :: x ∧ (b = 69 ∨ b = 101) ∧ ∃ e, Exponent (chars w) e := by
  obtain ⟨u, v, rfl, hu, hv⟩ := matches_cat.mp h
  obtain ⟨b, rfl, hb⟩ := matches_cls.mp hu
  obtain ⟨sg, ds, rfl, hs, hd⟩ := matches_cat.mp hv
  obtain ⟨hne, hd⟩ := plus_digit hd
  have hb' : b = 69 ∨ b = 101 := by
    have : ∀ b : Byte, inRanges b [(69, 69), (101, 101)] = true → b = 69 ∨ b = 101 := by decide +kernel
    exact this b hb
  refine ⟨b, sg ++ ds, rfl, hb', ?_⟩
  have hsg : ∃ k, Sign (chars sg) k := by
    rcases matches_alt.mp hs with hs | hs
    · rw [matches_eps.mp hs]; exact ⟨1, .none⟩
    · obtain ⟨c, rfl, hc⟩ := matches_cls.mp hs
      have : ∀ b : Byte, inRanges b [(43, 43), (45, 45)] = true → b = 43 ∨ b = 45 := by decide +kernel
      rcases this c hc with rfl | rfl
      · exact ⟨1, .plus⟩
      · exact ⟨-1, .minus⟩
  obtain ⟨k, hsg⟩ := hsg
  have he : chars ([b] ++ (sg ++ ds)) = Char.ofNat b.val :: (chars sg ++ chars ds) := by simp [chars]
  rw [he]
  refine ⟨k * value (chars ds), .exp ?_ ⟨chars sg, k, chars ds, _, rfl, hsg, by simpa [chars] using hne, digits_iff.mpr ⟨chars_digits hd, rfl⟩, rfl⟩⟩
  rcases hb' with rfl | rfl
  · exact Or.inr rfl
  · exact Or.inl rfl

/-- a literal of type float, taken apart -/
theorem float_parts {w : List Byte} (h : Matches (.cat (.star digit) (.alt floatDec floatExp)) w) : ∃ i p f x e, w = i ++ p ++ x ∧
    (p = [] ∧ f = [] ∨ p = 46 :: f) ∧ (∀ b ∈ i ++ f, inRanges b [(48, 57)] = true) ∧ Exponent (chars x) e ∧
    (x = [] ∨ ∃ b y, x = b :: y ∧ (b = 69 ∨ b = 101)) := by
  obtain ⟨i, v, rfl, hi, hv⟩ := matches_cat.mp h
  have hi := matches_star_cls.mp hi
  rcases matches_alt.mp hv with hv | hv
  · obtain ⟨pt, r, rfl, hpt, hr⟩ := matches_cat.mp hv
    obtain ⟨b, rfl, hb⟩ := matches_cls.mp hpt
    have hb' : b = 46 := by
      have : ∀ b : Byte, inRanges b [('.'.toNat, '.'.toNat)] = true → b = 46 := by decide +kernel
      exact this b hb
    subst hb'
    obtain ⟨f, x, rfl, hf, hx⟩ := matches_cat.mp hr
    have hf := matches_star_cls.mp hf
    have hif : ∀ b ∈ i ++ f, inRanges b [(48, 57)] = true := by
      intro c hc
      rcases List.mem_append.mp hc with hc | hc
      · exact hi c hc
      · exact hf c hc
    rcases matches_alt.mp hx with hx | hx
    · rw [matches_eps.mp hx]
      exact ⟨i, 46 :: f, f, [], 0, by simp, Or.inr rfl, hif, .none, Or.inl rfl⟩
    · obtain ⟨b, y, hxy, hb, e, he⟩ := exponent_literal hx
      exact ⟨i, 46 :: f, f, x, e, by simp, Or.inr rfl, hif, he, Or.inr ⟨b, y, hxy, hb⟩⟩
  · obtain ⟨b, y, hxy, hb, e, he⟩ := exponent_literal hv
    exact ⟨i, [], [], v, e, by simp, Or.inl ⟨rfl, rfl⟩, by simpa using hi, he, Or.inr ⟨b, y, hxy, hb⟩⟩

/-- C145, partial. A literal of type float in any setup file that has a digit before its exponent is a decimal number; it stands for the value of type
`double` that is closest to this number, unless the number is too large. What is missing: literals without such a digit, see
`C145_violated_no_digit`. -/
theorem C145_float_literal_partial (O : FloatOps ℚ) {file : List Byte} {line : ℕ} {toks : List Tok} {e : Ending} (h : Lex file line toks e)
    {t : Tok} (ht : t ∈ toks) (hk : t.kind = .float) (hd : HasDigit t.text) : ∃ v, FloatText (chars t.text) v ∧
      (|v| ≤ 2 ^ (1023 : ℤ) → ∃ y, meaning (withText O) t = some (.expr (.lit (.float y))) ∧ Binary64.IsDouble y ∧
        ∀ z, Binary64.IsDouble z → |y - v| ≤ |z - v|) := by
  obtain ⟨i, p, f, x, ex, hw, hp, hif, hx, hxh⟩ := float_parts ((number_pattern h ht).2 hk)
  have hne : i ++ f ≠ [] := by
    intro h0
    obtain ⟨rfl, rfl⟩ := List.append_eq_nil_iff.mp h0
    obtain ⟨u, b, w, hu, hb, hc⟩ := hd
    rw [hw] at hu
    have hx0 : ∀ u : List Byte, (∀ c ∈ u, c ≠ 69 ∧ c ≠ 101) → x ≠ u ++ b :: w := by
      intro u hc hu
      rcases hxh with rfl | ⟨a, y, rfl, ha⟩
      · simp at hu
      · cases u with
        | nil =>
          simp only [List.nil_append, List.cons.injEq] at hu
          rw [hu.1] at ha
          rcases ha with rfl | rfl <;> revert hb <;> decide
        | cons c u =>
          simp only [List.cons_append, List.cons.injEq] at hu
          have := hc c (by simp)
          rw [hu.1] at ha
          rcases ha with ha | ha
          · exact this.1 ha
          · exact this.2 ha
    rcases hp with ⟨rfl, -⟩ | rfl
    · exact hx0 u hc (by simpa using hu)
    · cases u with
      | nil =>
        simp only [List.nil_append, List.cons_append, List.cons.injEq] at hu
        rw [← hu.1] at hb
        exact absurd hb (by decide)
      | cons c u =>
        simp only [List.nil_append, List.cons_append, List.cons.injEq] at hu
        exact hx0 u (fun c hc' => hc c (by simp [hc'])) hu.2
  have hfr : Fraction (chars p) (chars f) := by
    rcases hp with ⟨rfl, rfl⟩ | rfl
    · exact .none
    · exact .point _
  have hdg : ∀ c ∈ chars i ++ chars f, c.isDigit = true := by
    have := chars_digits hif
    simpa [chars] using this
  have hft : FloatText (chars t.text) _ := ⟨[], 1, chars i, chars p, chars f, value (chars i ++ chars f), chars x, ex, by rw [hw]; simp [chars], .none,
    hfr, by simpa [chars] using hne, digits_iff.mpr ⟨hdg, rfl⟩, hx, rfl⟩
  refine ⟨_, hft, fun hv => ?_⟩
  have htl : (textOf t.text).toList = chars t.text := String.toList_ofList
  have hr := readFloat_iff.mpr ⟨_, htl ▸ hft, Lemma.Binary64.fl_some hv⟩
  refine ⟨_, ?_, ⟨Lemma.Binary64.rnd_format _, ?_⟩, fun z hz => Lemma.Binary64.rnd_near _ hz.1⟩
  · unfold meaning
    rw [hk]
    show (readFloat (textOf t.text)).map _ = _
    rw [hr]; rfl
  · exact lt_of_le_of_lt (Lemma.Binary64.rnd_abs_le (by norm_num) hv) Lemma.Binary64.big_lt

/-- C145 is violated: a point alone, or an exponent alone, is a literal of type float for the scanner, but there is no number in it. The
conversion fails with an exception that is not a `ParserError` (C139). -/
theorem C145_violated_no_digit (O : FloatOps ℚ) : Returns bufSize (bytes "x = .;") (.ok [⟨1, .identifier, bytes "x"⟩, ⟨1, .equal, []⟩,
      ⟨1, .float, bytes "."⟩, ⟨1, .semicolon, []⟩]) ∧ meaning (withText O) ⟨1, .float, bytes "."⟩ = none ∧
    Returns bufSize (bytes "x = e+5;") (.ok [⟨1, .identifier, bytes "x"⟩, ⟨1, .equal, []⟩,
      ⟨1, .float, bytes "e+5"⟩, ⟨1, .semicolon, []⟩]) ∧ meaning (withText O) ⟨1, .float, bytes "e+5"⟩ = none := by
  refine ⟨⟨(by intro c h; cases h), 400, by decide +kernel⟩, ?_, ⟨(by intro c h; cases h), 400, by decide +kernel⟩, ?_⟩
  · have h : readFloat (textOf (bytes ".")) = none := by decide +kernel
    show (readFloat (textOf (bytes "."))).map (fun x => DeckToken.expr (.lit (.float x))) = none
    rw [h]; rfl
  · have h : readFloat (textOf (bytes "e+5")) = none := by decide +kernel
    show (readFloat (textOf (bytes "e+5"))).map (fun x => DeckToken.expr (.lit (.float x))) = none
    rw [h]; rfl

/-- literals of both types in a file -/
example : ∃ toks e, Lex (bytes "n = 12; x = 2.5e-1;") 1 toks e ∧ (⟨1, .integer, bytes "12"⟩ : Tok) ∈ toks ∧
    (⟨1, .float, bytes "2.5e-1"⟩ : Tok) ∈ toks ∧ HasDigit (bytes "2.5e-1") := by
  obtain ⟨⟨toks, e⟩, h, -⟩ := C84_tokens_unique (bytes "n = 12; x = 2.5e-1;")
  have hr := (C84_longest_match bufSize _ (fits_of_length (by decide)) toks e h (.ok [⟨1, .identifier, bytes "n"⟩, ⟨1, .equal, []⟩,
    ⟨1, .integer, bytes "12"⟩, ⟨1, .semicolon, []⟩, ⟨1, .identifier, bytes "x"⟩, ⟨1, .equal, []⟩, ⟨1, .float, bytes "2.5e-1"⟩,
    ⟨1, .semicolon, []⟩])).1 ⟨(by intro c h; cases h), 400, by decide +kernel⟩
  have ht : toks = [⟨1, .identifier, bytes "n"⟩, ⟨1, .equal, []⟩,
    ⟨1, .integer, bytes "12"⟩, ⟨1, .semicolon, []⟩, ⟨1, .identifier, bytes "x"⟩, ⟨1, .equal, []⟩, ⟨1, .float, bytes "2.5e-1"⟩,
    ⟨1, .semicolon, []⟩] := by
    cases e with
    | badCharacter l => simp [report] at hr
    | _ => simpa [report] using hr.symm
  refine ⟨toks, e, h, by rw [ht]; simp, by rw [ht]; simp, [], 50, _, rfl, by decide, by simp⟩

end Schnek.Props
