import Verif.Spec.SettingsText
import Verif.Lemma.LexerLayout
import Verif.Lemma.DeckSeq
import Verif.Lemma.DeckFinish
import Verif.Props.NumberText
import Verif.Props.DeckText

/-!
# Lemmas on setup files made by a program
-/

namespace Schnek.Lemma.SettingsText

open Schnek.Scanner Schnek.Spec Schnek.Spec.Lexer Schnek.Lemma.Scanner Schnek.Lemma.Lexer

/-- the token ends before the character `c` -/
theorem token_stop {u : List Byte} {b c : Byte} {i : ℕ} (h : firstNull (dv b (vecOf u)) = some i) (hstop : dv c (vecOf (u ++ [b])) = [])
    (r : List Byte) : Longest (u ++ b :: c :: r) i (u.length + 1) ∧ ¬ Extendable ((u ++ b :: c :: r).take (u.length + 2)) := by
  have hb : (u ++ b :: c :: r)[u.length]? = some b := by simp
  have hc : (u ++ b :: c :: r)[u.length + 1]? = some c := by
    rw [List.getElem?_append_right (by omega)]; simp
  have t0 : (u ++ b :: c :: r).take u.length = u := by simp
  have t1 : (u ++ b :: c :: r).take (u.length + 1) = u ++ [b] := by rw [List.take_add_one, hb, t0]; rfl
  have t2 : (u ++ b :: c :: r).take (u.length + 2) = u ++ [b] ++ [c] := by rw [List.take_add_one, hc, t1]; rfl
  have hv : vecOf (u ++ [b] ++ [c]) = [] := by rw [vecOf_append, hstop]; rfl
  refine ⟨longest_of_best (by simp) (isBest_hit hb (by rw [t0]; exact h)) fun j k h1 h2 hm => ?_, ?_⟩
  · rcases Nat.lt_or_ge (u.length + 2) k with h3 | h3
    · exact no_longer hv t2 h3 h2 hm
    · obtain rfl : k = u.length + 2 := by omega
      rw [t2] at hm
      obtain ⟨r', hr', _⟩ := (patMatches_snoc _ _ _).1 hm
      rw [hstop] at hr'; simp at hr'
  · rw [t2]; exact not_extendable hv

theorem extendable_prefix {s : List Byte} {m n : ℕ} (hmn : m ≤ n) (h : Extendable (s.take n)) : Extendable (s.take m) := by
  obtain ⟨i, z, hz, hm⟩ := h
  refine ⟨i, (s.take n).drop m ++ z, by simp [hz], ?_⟩
  rw [← List.append_assoc]
  have : s.take m ++ (s.take n).drop m = s.take n := by
    conv_rhs => rw [← List.take_append_drop m (s.take n)]
    rw [List.take_take, Nat.min_eq_left hmn]
  rw [this]; exact hm

theorem fits_step {B : ℕ} {s : List Byte} {i n m : ℕ} (hl : Longest s i n) (hu : useOf i ≠ .comment) (hm : m ≤ B)
    (hx : ¬ Extendable (s.take m)) (hrest : Fits B (s.drop n)) : Fits B s := by
  intro t ht k hk he
  cases ht with
  | here =>
    by_contra hc
    exact hx (extendable_prefix (by omega) he)
  | later hn hb =>
    have : ∀ s1, Next s s1 → s1 = s.drop n := by
      intro s1 h
      cases h with
      | token h1 _ => rw [(longest_unique h1 hl).2]
      | comment h1 h2 _ => rw [(longest_unique h1 hl).1] at h2; exact absurd h2 hu
    rw [this _ hn] at hb
    exact hrest t hb k hk he

/-- the characters are read as these tokens -/
def Reads (s : List Byte) (p : List (Kind × List Byte)) : Prop :=
  Fits bufSize s ∧ ∀ L, ∃ toks, Lex s L toks .complete ∧ plainToks toks = p

theorem reads_nil : Reads [] [] := by
  refine ⟨fun s hs n hn _ => ?_, fun L => ⟨[], .nil, rfl⟩⟩
  cases hs with
  | here => simp at hn; subst hn; decide
  | later h _ =>
    cases h with
    | token hl _ => have := longest_pos hl; have := hl.inside; simp at this; omega
    | comment hl _ _ => have := longest_pos hl; have := hl.inside; simp at this; omega

theorem reads_step {s : List Byte} {i n m : ℕ} {p : List (Kind × List Byte)} (hl : Longest s i n) (hu : useOf i ≠ .comment) (hm : m ≤ bufSize)
    (hx : ¬ Extendable (s.take m)) (h : Reads (s.drop n) p) : Reads s (plainToks (emitted 0 (s.take n) (useOf i)) ++ p) := by
  refine ⟨fits_step hl hu hm hx h.1, fun L => ?_⟩
  obtain ⟨toks, ht, hp⟩ := h.2 (L + newlines (s.take n))
  refine ⟨_, .token hl hu ht, ?_⟩
  rw [plainToks, List.map_append]
  show plainToks _ ++ plainToks toks = _
  rw [hp, emitted_plain _ 0]

/-- the general step: the token `u ++ [b]`, before the character `c` -/
theorem reads_token {u : List Byte} {b c : Byte} {i : ℕ} (h : firstNull (dv b (vecOf u)) = some i) (hstop : dv c (vecOf (u ++ [b])) = [])
    (hu : useOf i ≠ .comment) (hlen : u.length + 2 ≤ bufSize) {r : List Byte} {p : List (Kind × List Byte)} (hr : Reads (c :: r) p) :
    Reads (u ++ b :: c :: r) (plainToks (emitted 0 (u ++ [b]) (useOf i)) ++ p) := by
  obtain ⟨h1, h2⟩ := token_stop h hstop r
  have e1 : (u ++ b :: c :: r).drop (u.length + 1) = c :: r := by
    rw [show u ++ b :: c :: r = (u ++ [b]) ++ c :: r by simp, show u.length + 1 = (u ++ [b]).length by simp, List.drop_left]
  have e2 : (u ++ b :: c :: r).take (u.length + 1) = u ++ [b] := by
    rw [show u ++ b :: c :: r = (u ++ [b]) ++ c :: r by simp, show u.length + 1 = (u ++ [b]).length by simp, List.take_left]
  have := reads_step h1 hu hlen h2 (by rw [e1]; exact hr)
  rwa [e2] at this

theorem reads_blank {b : Byte} (hb : blank b = true) {r : List Byte} {p : List (Kind × List Byte)} (hr : Reads r p) : Reads (b :: r) p := by
  have hv : ∀ b : Byte, blank b = true → vecOf [b] = [] := by decide +kernel
  have := reads_step (m := 1) (longest_blank hb r) (by decide) (by decide) (not_extendable (by simpa using hv b hb)) hr
  simpa [useOf, patterns, emitted, plainToks] using this

/-! ## the tokens of a setting -/

def isDigit (b : Byte) : Bool := inRanges b [(48, 57)]

theorem digit_tables : (∀ b : Byte, isDigit b = true → strip (dv b (vecOf [])) = resid 14 ∧ firstNull (dv b (vecOf [])) = some 25 ∧
      strip (dv b (resid 14)) = resid 14 ∧ firstNull (dv b (resid 14)) = some 25) ∧ dv 59 (resid 14) = [] := by decide +kernel

theorem digits_state {w : List Byte} (hw : ∀ b ∈ w, isDigit b = true) (hne : w ≠ []) : vecOf w = resid 14 := by
  induction w using List.reverseRecOn with
  | nil => exact absurd rfl hne
  | append_singleton w b ih =>
    have hb := digit_tables.1 b (hw b (by simp))
    rw [vecOf_append]
    by_cases h0 : w = []
    · subst h0; exact hb.1
    · rw [ih (fun c hc => hw c (by simp [hc])) h0]; exact hb.2.2.1

/-- digits before a semicolon -/
theorem reads_digits {w : List Byte} (hw : ∀ b ∈ w, isDigit b = true) (hne : w ≠ []) (hlen : w.length < bufSize) {r : List Byte}
    {p : List (Kind × List Byte)} (hr : Reads (59 :: r) p) : Reads (w ++ 59 :: r) ((.integer, w) :: p) := by
  obtain ⟨u, b, rfl⟩ : ∃ u b, w = u ++ [b] := ⟨w.dropLast, w.getLast hne, (List.dropLast_append_getLast hne).symm⟩
  have hb := digit_tables.1 b (hw b (by simp))
  have := reads_token (u := u) (b := b) (c := 59) (i := 25) (by
    by_cases h0 : u = []
    · subst h0; exact hb.2.1
    · rw [digits_state (fun c hc => hw c (by simp [hc])) h0]; exact hb.2.2.2) (by rw [digits_state hw hne]; exact digit_tables.2) (by decide)
    (by simp only [List.length_append, List.length_singleton] at hlen; omega) hr
  simpa [useOf, patterns, emitted, plainToks] using this

theorem ident_blank : ∀ cs ∈ identStates, dv 32 (resid cs) = [] := by decide +kernel

/-- a name before a space -/
theorem reads_name {a : Byte} {w : List Byte} (ha : letter a = true) (hw : ∀ b ∈ w, letterOrDigit b = true)
    (hkey : ∀ k ∈ keywords, (a :: w).map Fin.val ≠ k.toList.map Char.toNat) (hlen : w.length + 2 ≤ bufSize) {r : List Byte}
    {p : List (Kind × List Byte)} (hr : Reads (32 :: r) p) : Reads (a :: w ++ 32 :: r) ((.identifier, a :: w) :: p) := by
  have hl := longest_ident a ha w hw (32 :: r) hkey (by intro b hb; cases hb; decide) (by
    rintro ⟨-, -, c, d, r', h, hc, -⟩
    cases h
    revert hc; decide)
  obtain ⟨cs, hcs, hv, -⟩ := ident_state a ha w hw
  have hx : ¬ Extendable ((a :: w ++ 32 :: r).take (w.length + 2)) := by
    have : (a :: w ++ 32 :: r).take (w.length + 2) = (a :: w) ++ [32] := by
      rw [show a :: w ++ 32 :: r = ((a :: w) ++ [32]) ++ r by simp, show w.length + 2 = ((a :: w) ++ [32]).length by simp, List.take_left]
    rw [this]
    refine not_extendable ?_
    rw [vecOf_append, hv, ident_blank cs hcs]; rfl
  have e1 : (a :: w ++ 32 :: r).drop (w.length + 1) = 32 :: r := by
    rw [show w.length + 1 = (a :: w).length by simp, List.drop_left]
  have e2 : (a :: w ++ 32 :: r).take (w.length + 1) = a :: w := by
    rw [show w.length + 1 = (a :: w).length by simp, List.take_left]
  have := reads_step (m := w.length + 2) hl (by decide) hlen hx (by rw [e1]; exact hr)
  rw [e2] at this
  simpa [useOf, patterns, emitted, plainToks] using this

/-! ## the text of a setting -/

open Schnek.Spec.SettingsText Schnek.Lemma.Diag Schnek.Diagnostic Schnek.NumberText Schnek.Deck Schnek.Lemma.Deck

/-- the tokens of a number -/
def numberTokens (v : ℤ) : List (Kind × List Byte) :=
  if v < 0 then [(.minus, []), (.integer, bytes (String.ofList (decimalNat v.natAbs)))]
  else [(.integer, bytes (String.ofList (decimalNat v.natAbs)))]

/-- the tokens of a setting -/
def settingTokens (s : String × ℤ) : List (Kind × List Byte) :=
  (.intDecl, []) :: (.identifier, bytes s.1) :: (.equal, []) :: (numberTokens s.2 ++ [(.semicolon, [])])

theorem bytes_digits (n : ℕ) : (∀ b ∈ bytes (String.ofList (decimalNat n)), isDigit b = true) ∧ bytes (String.ofList (decimalNat n)) ≠ [] := by
  unfold bytes
  rw [String.toList_ofList]
  refine ⟨?_, by simpa using decimalNat_ne n⟩
  intro b hb
  obtain ⟨c, hc, rfl⟩ := List.mem_map.mp hb
  have hd := decimalNat_digit n c hc
  have h1 : 48 ≤ c.toNat ∧ c.toNat ≤ 57 := by
    have := (NumberText.isDigit_iff c).mp hd
    omega
  obtain ⟨h2, h3⟩ := h1
  generalize c.toNat = k at *
  interval_cases k <;> decide

theorem bytes_length (n : ℕ) (h : n ≤ 2 ^ 31) : (bytes (String.ofList (decimalNat n))).length ≤ 10 := by
  unfold bytes
  rw [String.toList_ofList, List.length_map]
  unfold decimalNat
  split
  · simp
  · rw [List.length_map, List.length_reverse]
    exact (Nat.digits_length_le_iff (by norm_num) n).mpr (by omega)

theorem textOf_bytes {s : String} (h : ∀ c ∈ s.toList, c.toNat < 256) : textOf (bytes s) = s := by
  unfold textOf bytes
  rw [List.map_map]
  conv_rhs => rw [← String.ofList_toList (s := s)]
  congr 1
  conv_rhs => rw [← List.map_id s.toList]
  refine List.map_congr_left fun c hc => ?_
  show Char.ofNat (c.toNat % 256) = c
  rw [Nat.mod_eq_of_lt (h c hc), Char.ofNat_toNat]

theorem bytes_val {s : String} (h : ∀ c ∈ s.toList, c.toNat < 256) : (bytes s).map Fin.val = s.toList.map Char.toNat := by
  unfold bytes
  rw [List.map_map]
  refine List.map_congr_left fun c hc => ?_
  show c.toNat % 256 = c.toNat
  exact Nat.mod_eq_of_lt (h c hc)

theorem digit_minus : ∀ c : Byte, isDigit c = true → dv c (vecOf [45]) = [] := by decide +kernel

theorem reads_number {v : ℤ} (h1 : -2 ^ 31 ≤ v) (h2 : v < 2 ^ 31) {r : List Byte} {p : List (Kind × List Byte)} (hr : Reads (59 :: r) p) :
    Reads (bytes (String.ofList (decimal v)) ++ 59 :: r) (numberTokens v ++ p) := by
  obtain ⟨hd, hne⟩ := bytes_digits v.natAbs
  have hl := bytes_length v.natAbs (by omega)
  have hD := reads_digits hd hne (by show _ ≤ 128; omega) hr
  unfold decimal numberTokens
  by_cases hv : v < 0
  · rw [if_pos hv, if_pos hv]
    have e : bytes (String.ofList ('-' :: decimalNat v.natAbs)) = 45 :: bytes (String.ofList (decimalNat v.natAbs)) := by
      unfold bytes
      rw [String.toList_ofList, String.toList_ofList]; rfl
    rw [e]
    obtain ⟨c, w, hw⟩ : ∃ c w, bytes (String.ofList (decimalNat v.natAbs)) = c :: w := List.exists_cons_of_ne_nil hne
    rw [hw] at hD hd ⊢
    have := reads_token (u := []) (b := 45) (c := c) (i := 8) (by decide +kernel) (digit_minus c (hd c (by simp))) (by decide) (by decide) hD
    simpa [useOf, patterns, emitted, plainToks] using this
  · rw [if_neg hv, if_neg hv]
    exact hD

/-- the tokens of a line without the type -/
def parameterTokens (s : String × ℤ) : List (Kind × List Byte) :=
  (.identifier, bytes s.1) :: (.equal, []) :: (numberTokens s.2 ++ [(.semicolon, [])])

theorem reads_parameter {s : String × ℤ} (hn : IsName s.1) (h1 : -2 ^ 31 ≤ s.2) (h2 : s.2 < 2 ^ 31) {r : List Byte}
    {p : List (Kind × List Byte)} (hr : Reads r p) : Reads (parameterText s ++ r) (parameterTokens s ++ p) := by
  obtain ⟨name, v⟩ := s
  obtain ⟨⟨a, w, hw, ha, hw'⟩, hc, hk, hlen⟩ := hn
  have r1 : Reads (59 :: 10 :: r) ((.semicolon, []) :: p) := by
    have := reads_token (u := []) (b := 59) (c := 10) (i := 5) (by decide +kernel) (by decide +kernel) (by decide) (by decide)
      (reads_blank (b := 10) (by decide) hr)
    simpa [useOf, patterns, emitted, plainToks] using this
  have r2 := reads_blank (b := 32) (by decide) (reads_number h1 h2 r1)
  have r3 := reads_blank (b := 32) (by decide) (reads_token (u := []) (b := 61) (c := 32) (i := 0) (by decide +kernel) (by decide +kernel)
    (by decide) (by decide) r2)
  have r4 := reads_name ha hw' (by
    intro k hk' he
    rw [← hw, bytes_val hc] at he
    have : name = k := String.toList_inj.mp (List.map_injective_iff.mpr (fun x y hxy => Char.toNat_inj.mp hxy) he)
    exact hk (this ▸ hk')) (by
      have : (bytes name).length = name.length := by rw [bytes, List.length_map, String.length_toList]
      rw [hw] at this
      simp only [List.length_cons] at this
      show _ ≤ 128
      dsimp only at hlen
      omega) r3
  have e : parameterText (name, v) ++ r = a :: w ++ 32 :: ([] ++ 61 :: 32 :: (bytes (String.ofList (decimal v)) ++ 59 :: 10 :: r)) := by
    unfold parameterText
    rw [← hw, show bytes " = " = [32, 61, 32] by decide +kernel, show bytes ";\n" = [59, 10] by decide +kernel]
    simp
  rw [e, parameterTokens]
  dsimp only
  rw [hw]
  simpa [useOf, patterns, emitted, plainToks] using r4

theorem reads_setting {s : String × ℤ} (hn : IsName s.1) (h1 : -2 ^ 31 ≤ s.2) (h2 : s.2 < 2 ^ 31) {r : List Byte}
    {p : List (Kind × List Byte)} (hr : Reads r p) : Reads (settingText s ++ r) (settingTokens s ++ p) := by
  have r5 := reads_token (u := [105, 110]) (b := 116) (c := 32) (i := 12) (by decide +kernel) (by decide +kernel) (by decide) (by decide)
    (reads_blank (b := 32) (by decide) (reads_parameter hn h1 h2 hr))
  have e : settingText s ++ r = [105, 110] ++ 116 :: 32 :: (parameterText s ++ r) := by
    unfold settingText parameterText
    rw [show bytes "int " = [105, 110, 116, 32] by decide +kernel]
    simp
  rw [e]
  simpa [settingTokens, parameterTokens, useOf, patterns, emitted, plainToks] using r5

/-- the settings are read as their tokens -/
theorem reads_settings {l : List (String × ℤ)} (h : ∀ s ∈ l, IsName s.1 ∧ -2 ^ 31 ≤ s.2 ∧ s.2 < 2 ^ 31) :
    Reads (settingsText l) (l.flatMap settingTokens) := by
  induction l with
  | nil => exact reads_nil
  | cons s l ih =>
    obtain ⟨h1, h2, h3⟩ := h s (by simp)
    exact reads_setting h1 h2 h3 (ih fun t ht => h t (by simp [ht]))

/-! ## the statements -/

/-- the expression of a number -/
def numberExpr (v : ℤ) : Grammar.Expression ℚ :=
  if v < 0 then .one (.minus (.one (.one (.lit (.int v.natAbs))))) else .one (.one (.one (.one (.lit (.int v.natAbs)))))

/-- the statement of a setting -/
def settingStmt (s : String × ℤ) : Stmt ℚ := .decl .int [(s.1, some (numberExpr s.2))]

/-- what a token stands for, without its line -/
def plainMeaning (O : FloatOps ℚ) (t : Kind × List Byte) : Option (DeckToken ℚ) := meaning O ⟨0, t.1, t.2⟩

theorem meaning_plain (O : FloatOps ℚ) (toks : List Tok) : toks.map (meaning O) = (plainToks toks).map (plainMeaning O) := by
  unfold plainToks
  rw [List.map_map]
  rfl

theorem number_meaning (O : FloatOps ℚ) {n : ℕ} (h : n < 2 ^ 31) :
    plainMeaning (withText O) (.integer, bytes (String.ofList (decimalNat n))) = some (.expr (.lit (.int n))) := by
  have ht : textOf (bytes (String.ofList (decimalNat n))) = String.ofList (decimalNat n) := by
    refine textOf_bytes fun c hc => ?_
    rw [String.toList_ofList] at hc
    have := (NumberText.isDigit_iff c).mp (decimalNat_digit n c hc)
    omega
  have hr := Props.C145_int_again n (by omega) (by exact_mod_cast h)
  have hs : showInt (n : ℤ) = String.ofList (decimalNat n) := by
    unfold showInt decimal
    rw [if_neg (by omega)]; rfl
  rw [hs] at hr
  unfold plainMeaning meaning
  simp only [ht]
  rw [show (withText O).readInt = readInt from rfl, hr]; rfl

theorem setting_statement (O : FloatOps ℚ) {s : String × ℤ} (hn : IsName s.1) (h1 : -2 ^ 31 < s.2) (h2 : s.2 < 2 ^ 31) :
    ∃ ts, (settingTokens s).map (plainMeaning (withText O)) = ts.map some ∧ StmtTokens (settingStmt s) ts := by
  refine ⟨_, ?_, .decl .int [(s.1, some (numberExpr s.2))] (by simp)⟩
  have e1 : plainMeaning (withText O) (.identifier, bytes s.1) = some (.expr (.ident s.1)) := by
    show some (DeckToken.expr (Token.ident (textOf (bytes s.1)))) = _
    rw [textOf_bytes hn.2.1]
  have e2 := number_meaning O (n := s.2.natAbs) (by omega)
  unfold settingTokens numberTokens numberExpr
  by_cases hv : s.2 < 0
  · simp only [if_pos hv, List.map_cons, List.map_nil, List.cons_append, List.nil_append, List.map_append, e1, e2]
    rfl
  · simp only [if_neg hv, List.map_cons, List.map_nil, List.cons_append, List.nil_append, List.map_append, e1, e2]
    rfl

/-- the tokens of a list of settings are its statements -/
theorem settings_deck (O : FloatOps ℚ) : ∀ (l : List (String × ℤ)), (∀ s ∈ l, IsName s.1 ∧ -2 ^ 31 < s.2 ∧ s.2 < 2 ^ 31) →
    ∀ toks : List Tok, plainToks toks = l.flatMap settingTokens →
      ∃ parts, toks = parts.flatten ∧ List.Forall₂ (IsStatement (withText O)) parts (l.map settingStmt) ∧ ∀ part ∈ parts, part.length ≤ 98 := by
  intro l
  induction l with
  | nil =>
    intro _ toks ht
    have : toks = [] := by simpa [plainToks] using ht
    exact ⟨[], by simp [this], .nil, by simp⟩
  | cons s l ih =>
    intro h toks ht
    rw [List.flatMap_cons] at ht
    unfold plainToks at ht
    obtain ⟨t1, t2, rfl, h1, h2⟩ := List.map_eq_append_iff.mp ht
    obtain ⟨hn, hv1, hv2⟩ := h s (by simp)
    obtain ⟨parts, rfl, hp1, hp2⟩ := ih (fun t ht => h t (by simp [ht])) t2 h2
    obtain ⟨ts, hts, hst⟩ := setting_statement O hn hv1 hv2
    refine ⟨t1 :: parts, by simp, .cons ⟨ts, ?_, hst⟩ hp1, ?_⟩
    · rw [meaning_plain, ← hts]
      unfold plainToks
      rw [h1]
    · intro part hm
      rcases List.mem_cons.mp hm with rfl | hm
      · have : part.length = (settingTokens s).length := by rw [← h1, List.length_map]
        rw [this, settingTokens, numberTokens]
        split <;> simp
      · exact hp2 part hm

/-! ## running the statements -/

variable {W : Type}

/-- no variable is defined by other variables -/
def NoRefs (D : DeckState ℚ W) : Prop := ∀ x ∈ D.heap, ∀ e, x.expression = some e → mentioned e = []

theorem params_noRefs (H : Host ℚ W) (c : ℕ) (specs : List (ParamSpec ℚ)) :
    ∀ s : DeckState ℚ W × List (String × BlockParam), NoRefs s.1 → NoRefs (specs.foldl (DeckState.addParameter H c) s).1 ∧
      (specs.foldl (DeckState.addParameter H c) s).1.store.cursor = s.1.store.cursor := by
  induction specs with
  | nil => intro s h; exact ⟨h, rfl⟩
  | cons p ps ih =>
    intro s h
    rw [List.foldl_cons]
    obtain ⟨h1, h2⟩ := ih (DeckState.addParameter H c s p) (by
      intro x hx e he
      rcases List.mem_append.mp hx with hx | hx
      · exact h x hx e he
      · rw [List.mem_singleton.mp hx] at he
        unfold DeckState.paramVariable at he
        split at he
        · cases he
        · split at he
          · cases he; rfl
          · cases he)
    refine ⟨h1, h2.trans ?_⟩
    show ((s.1.store.addVariableTo c p.name s.1.heap.length).getD s.1.store).cursor = _
    rcases hT : s.1.store.addVariableTo c p.name s.1.heap.length with _ | T
    · rfl
    · exact (Vars.addVariableTo_cursor hT).1

theorem begin_noRefs (P : Program ℚ W) : NoRefs P.begin ∧ P.begin.store.cursor = 0 := by
  unfold Program.begin DeckState.start
  generalize hI : (DeckState.initial P.name P.className P.classes P.restr P.ext P.world P.nextId : DeckState ℚ W) = I
  have h0 : NoRefs I ∧ I.store.cursor = 0 := by
    subst hI
    refine ⟨?_, rfl⟩
    intro x hx
    cases hx
  obtain ⟨l, h, -⟩ := getClass_snd I P.className
  rcases hf : (I.getClass P.className).1.factory with _ | specs
  · rw [enterBlock_none P.host I P.name P.className hf, h]
    exact h0
  · rw [enterBlock_some P.host I P.name P.className specs hf]
    obtain ⟨h1, h2⟩ := params_noRefs P.host (I.getClass P.className).2.store.cursor specs ((I.getClass P.className).2, []) (by rw [h]; exact h0.1)
    refine ⟨h1, h2.trans ?_⟩
    rw [h]; exact h0.2

theorem noRefs_finish (H : Host ℚ W) {D : DeckState ℚ W} (hD : DInv D) (h : NoRefs D) : D.finish H ≠ none := by
  intro hn
  obtain ⟨v, hv⟩ := (finish_spec H hD).2.mp hn
  have : ∀ u w, ¬ DependsOn D u w := by
    rintro u w ⟨-, e, ⟨-, x, hx, -, he⟩, hu⟩
    rw [h x (List.mem_of_getElem? hx) e he] at hu
    cases hu
  obtain ⟨w, hw⟩ := Relation.TransGen.head'_iff.mp hv
  exact this _ _ hw.1

/-- the number of a setting -/
theorem build_number (H : Host ℚ W) (D : DeckState ℚ W) {v : ℤ} (h1 : -2 ^ 31 < v) (h2 : v < 2 ^ 31) :
    ∃ e, (numberExpr v).build (D.env H) = some e ∧ e.isConstant D.state = true ∧ e.eval H.ops D.state = some (.int v) := by
  unfold numberExpr
  by_cases hv : v < 0
  · rw [if_pos hv]
    refine ⟨_, rfl, rfl, ?_⟩
    show (checkInt (-(v.natAbs : ℤ))).map Val.int = _
    have : -(v.natAbs : ℤ) = v := by omega
    rw [this, checkInt, if_pos ⟨by omega, h2⟩]; rfl
  · rw [if_neg hv]
    refine ⟨_, rfl, rfl, ?_⟩
    have : (v.natAbs : ℤ) = v := by omega
    show some (Val.int (v.natAbs : ℤ)) = _
    rw [this]

/-- a setting is stored -/
theorem step_setting (H : Host ℚ W) (D : DeckState ℚ W) (hD : DInv D) {s : String × ℤ} (h1 : -2 ^ 31 < s.2) (h2 : s.2 < 2 ^ 31)
    (hnew : ∀ v, ¬ Declares D.store D.store.cursor s.1 v) : ∃ st, D.store.addVariableTo D.store.cursor s.1 D.heap.length = some st ∧
      D.step H (settingStmt s) =
        (true, { D with store := st, heap := D.heap ++ [.ofValue (.int s.2) true false D.nextId], nextId := D.nextId + 1 }) := by
  obtain ⟨e, he, hc, hev⟩ := build_number H D h1 h2
  have hv : D.store.varOf D.store.cursor s.1 = none := by
    rcases hv : D.store.varOf D.store.cursor s.1 with _ | v
    · rfl
    · exact absurd ((Vars.varOf_iff hD.store _ _ _).mp hv) (hnew v)
  refine ⟨_, by unfold Storage.addVariableTo; rw [hv]; rfl, ?_⟩
  show D.declare H .int [(s.1, some (numberExpr s.2))] = _
  simp only [DeckState.declare, DeckState.buildAll, he, Option.bind_some, Option.map_some, List.reverse_singleton]
  simp only [DeckState.chain, DeckState.storeOne, DeckState.evaluate, hc, hev, if_true, Option.map_some, Storage.addVariable,
    Storage.addVariableTo, hv]
  rfl

/-- all of them are stored -/
theorem run_settings (H : Host ℚ W) : ∀ (l : List (String × ℤ)) (D : DeckState ℚ W), DInv D → NoRefs D →
    (∀ s ∈ l, -2 ^ 31 < s.2 ∧ s.2 < 2 ^ 31) → (l.map Prod.fst).Nodup → (∀ s ∈ l, ∀ v, ¬ Declares D.store D.store.cursor s.1 v) →
    ∃ D', D.run H (l.map settingStmt) = (true, D') ∧ DInv D' ∧ NoRefs D' ∧ D'.store.cursor = D.store.cursor ∧ (∃ t, D'.heap = D.heap ++ t) ∧
      (∀ b n v, Declares D.store b n v → Declares D'.store b n v) ∧
      (∀ s ∈ l, ∃ v id, Declares D'.store D.store.cursor s.1 v ∧ D'.heap[v]? = some (.ofValue (.int s.2) true false id)) ∧
      ∀ b n v, Declares D'.store b n v → Declares D.store b n v ∨ (b = D.store.cursor ∧ n ∈ l.map Prod.fst) := by
  intro l
  induction l with
  | nil => intro D hD hR _ _ _; exact ⟨D, rfl, hD, hR, rfl, ⟨[], by simp⟩, fun _ _ _ h => h, by simp, fun _ _ _ h => Or.inl h⟩
  | cons s l ih =>
    intro D hD hR hv hnd hnew
    obtain ⟨hn1, hn2⟩ := List.nodup_cons.mp hnd
    obtain ⟨st, hst, hstep⟩ := step_setting H D hD (hv s (by simp)).1 (hv s (by simp)).2 (hnew s (by simp))
    have hI := dinv_step H D (settingStmt s) hD
    rw [hstep] at hI
    have hdec := Vars.addVariableTo_declares hst
    have hcur := (Vars.addVariableTo_cursor hst).1
    generalize hD1 : ({ D with store := st, heap := D.heap ++ [.ofValue (.int s.2) true false D.nextId], nextId := D.nextId + 1 } :
      DeckState ℚ W) = D1 at hstep hI
    have hs1 : D1.store = st := by rw [← hD1]
    have hh1 : D1.heap = D.heap ++ [.ofValue (.int s.2) true false D.nextId] := by rw [← hD1]
    rw [← hs1] at hdec hcur
    obtain ⟨D', a1, a2, a3, a4, ⟨t, a5⟩, a6, a7, a8⟩ := ih D1 hI (by
      intro x hx e he
      rw [hh1] at hx
      rcases List.mem_append.mp hx with hx | hx
      · exact hR x hx e he
      · rw [List.mem_singleton.mp hx] at he; cases he) (fun t ht => hv t (by simp [ht])) hn2 (by
      intro t ht v hd
      rw [hcur, hdec] at hd
      rcases hd with hd | ⟨-, -, hd, -⟩
      · exact hnew t (by simp [ht]) v hd
      · exact hn1 (hd ▸ List.mem_map_of_mem ht))
    refine ⟨D', ?_, a2, a3, a4.trans hcur, ⟨_, by rw [a5, hh1, List.append_assoc]⟩, fun b n v h => a6 b n v ((hdec b n v).mpr (Or.inl h)), ?_, ?_⟩
    · show DeckState.chain (DeckState.step H) (settingStmt s :: l.map settingStmt) D = _
      rw [chain_cons, hstep]
      exact a1
    · intro u hu
      rcases List.mem_cons.mp hu with rfl | hu
      · refine ⟨D.heap.length, D.nextId, a6 _ _ _ ((hdec _ _ _).mpr (Or.inr ⟨rfl, hD.store.cursor, rfl, rfl⟩)), ?_⟩
        rw [a5, hh1, List.append_assoc, List.getElem?_append_right (le_refl _)]
        simp
      · obtain ⟨v, id, h1, h2⟩ := a7 u hu
        exact ⟨v, id, by rw [← hcur]; exact h1, h2⟩
    · intro b n v h
      rcases a8 b n v h with h | ⟨h1, h2⟩
      · rcases (hdec b n v).mp h with h | ⟨h1, -, h2, -⟩
        · exact Or.inl h
        · exact Or.inr ⟨h1, by simp [h2]⟩
      · exact Or.inr ⟨h1.trans hcur, List.mem_cons_of_mem _ h2⟩

end Schnek.Lemma.SettingsText
