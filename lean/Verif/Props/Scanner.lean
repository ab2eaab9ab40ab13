import Verif.Lemma.ScannerExamples

/-!
# C54, C84 - C88: the scanner of the deck parser

The model (`Verif.Model.Scanner`) consists of the generated tables of src/parser/internal/deckscanner.cpp and of the loop that
interprets them on a buffer.  The specification (`Verif.Spec.Lexer`) consists of the patterns of parser/deckscanner.rl.
-/

namespace Schnek.Props

open Schnek.Scanner Schnek.Spec.Lexer Schnek.Lemma.Scanner Schnek.Lemma.Lexer

/-! ## C84: the tokens are the longest matches of the patterns -/

/-- C84.  Every input has exactly one division into tokens by the rule of the longest match. -/
theorem C84_tokens_unique (input : List Byte) : ∃! x : List Tok × Ending, Lex input 1 x.1 x.2 := by
  obtain ⟨toks, e, h, _⟩ := lex_total input
  refine ⟨(toks, e), h, ?_⟩
  rintro ⟨toks', e'⟩ h'
  obtain ⟨h1, h2⟩ := lex_unique h toks' e' h'
  rw [h1, h2]

/-- C84.  When the tokens fit into the buffer, the scanner returns exactly these tokens, with the line number in which each of
them ends, and a message if and only if a character was found with which no token begins. -/
theorem C84_longest_match (B : ℕ) (input : List Byte) (hfit : Fits B input) (toks : List Tok) (e : Ending)
    (h : Lex input 1 toks e) (o : Outcome) : Returns B input o ↔ o = report e toks := by
  obtain ⟨toks', e', h1, h2⟩ := scan_run B input.length input _ 1 [] (le_refl _) (start_atStart B input) hfit
  obtain ⟨rfl, rfl⟩ := lex_unique h toks' e' h1
  constructor
  · intro ho; exact Ends.unique ho h2
  · rintro rfl; exact h2

/-- The conditions of `C84_longest_match` are met: a block with a variable, with the buffer of the program. -/
example : Fits bufSize (bytes "Block {\n  a = 2.5e3;\n}") ∧
    Returns bufSize (bytes "Block {\n  a = 2.5e3;\n}") (.ok [⟨1, .identifier, bytes "Block"⟩, ⟨1, .lbrace, []⟩,
      ⟨2, .identifier, bytes "a"⟩, ⟨2, .equal, []⟩, ⟨2, .float, bytes "2.5e3"⟩, ⟨2, .semicolon, []⟩, ⟨3, .rbrace, []⟩]) :=
  ⟨fits_of_length (by decide), (by intro c h; cases h), 400, by decide +kernel⟩

/-! ## C54: the buffer -/

/-- C54, partial: two scanners with buffers into which the tokens of the input fit return the same.  What is missing: inputs with
a token that does not fit into the buffer, for which the claim is false. -/
theorem C54_buffer_size_irrelevant_partial (B B' : ℕ) (input : List Byte) (h : Fits B input) (h' : Fits B' input) :
    ∃ o, Returns B input o ∧ Returns B' input o := by
  obtain ⟨toks, e, hl, _⟩ := lex_total input
  exact ⟨report e toks, (C84_longest_match B input h toks e hl _).2 rfl, (C84_longest_match B' input h' toks e hl _).2 rfl⟩

/-- C54.  The scanner returns if and only if the tokens fit into the buffer. -/
theorem C54_returns_iff_fits (B : ℕ) (input : List Byte) : (∃ o, Returns B input o) ↔ Fits B input := by
  constructor
  · rintro ⟨o, ho⟩ s hs n hn hext
    by_contra hlt
    push Not at hlt
    exact Hangs.not_ends (scan_hangs B hs _ 1 [] (start_atStart B input) ⟨n, hn, hext, hlt⟩) o ho
  · intro h
    obtain ⟨toks, e, hl, _⟩ := lex_total input
    exact ⟨_, (C84_longest_match B input h toks e hl _).2 rfl⟩

/-- Two buffers into which the tokens fit although the input does not: the boundaries of the buffers fall at different places. -/
example : Returns 8 (bytes "alpha = beta;\ngamma = 7;") (.ok [⟨1, .identifier, bytes "alpha"⟩, ⟨1, .equal, []⟩,
      ⟨1, .identifier, bytes "beta"⟩, ⟨1, .semicolon, []⟩, ⟨2, .identifier, bytes "gamma"⟩, ⟨2, .equal, []⟩,
      ⟨2, .integer, bytes "7"⟩, ⟨2, .semicolon, []⟩]) ∧ Fits 8 (bytes "alpha = beta;\ngamma = 7;") := by
  have h : Returns 8 (bytes "alpha = beta;\ngamma = 7;") (.ok [⟨1, .identifier, bytes "alpha"⟩, ⟨1, .equal, []⟩,
      ⟨1, .identifier, bytes "beta"⟩, ⟨1, .semicolon, []⟩, ⟨2, .identifier, bytes "gamma"⟩, ⟨2, .equal, []⟩,
      ⟨2, .integer, bytes "7"⟩, ⟨2, .semicolon, []⟩]) := ⟨(by intro c h; cases h), 400, by decide +kernel⟩
  exact ⟨h, (C54_returns_iff_fits 8 _).1 ⟨_, h⟩⟩

/-- C54 is violated: an identifier of 128 letters or more is never read, although a larger buffer would do. -/
theorem C54_violated_long_token (n : ℕ) (hn : 128 ≤ n) :
    (∀ o, ¬ Returns bufSize (List.replicate n 120) o) ∧ ∃ o, Returns (n + 1) (List.replicate n 120) o := by
  constructor
  · intro o ho
    have hf := (C54_returns_iff_fits bufSize _).1 ⟨o, ho⟩
    have := hf _ .here n (by simp) (by rw [List.take_of_length_le (by simp)]; exact extendable_letters n)
    unfold bufSize at this
    omega
  · exact (C54_returns_iff_fits _ _).2 (fits_of_length (by simp))

/-! ## C85: comments -/

/-- C85, partial: a comment from `//` to the end of the line yields no token and does not change what follows.  What is missing:
a comment that is ended by the end of the input, for which the claim is false. -/
theorem C85_line_comment_skipped_partial (w r : List Byte) (hw : ∀ b ∈ w, b ≠ 10) (L : ℕ) (toks : List Tok) (e : Ending) :
    Lex (bytes "//" ++ w ++ 10 :: r) L toks e ↔ Lex r (L + 1) toks e := by
  rw [lex_token_iff (longest_line w r hw) (by decide)]
  have hlen : (bytes "//" ++ w ++ [10]).length = w.length + 3 := by simp [bytes]
  have hs : bytes "//" ++ w ++ 10 :: r = (bytes "//" ++ w ++ [10]) ++ r := by simp
  have htake : (bytes "//" ++ w ++ 10 :: r).take (w.length + 3) = bytes "//" ++ w ++ [10] := by
    rw [hs, ← hlen, List.take_left]
  have hdrop : (bytes "//" ++ w ++ 10 :: r).drop (w.length + 3) = r := by
    rw [hs, ← hlen, List.drop_left]
  have hnl : newlines (bytes "//" ++ w ++ [10]) = 1 := by
    rw [newlines_append, newlines_append]
    have h0 : newlines w = 0 := by
      unfold newlines
      exact List.count_eq_zero_of_not_mem (fun h => hw 10 h rfl)
    rw [h0]; decide
  rw [htake, hdrop, hnl]
  constructor
  · rintro ⟨toks', rfl, h⟩; exact h
  · intro h; exact ⟨toks, rfl, h⟩

example : ∀ b ∈ bytes " a = 'b' */ {", b ≠ 10 := by decide +kernel

/-- C85.  A comment from `/*` to the next `*/` yields no token; its line breaks are counted. -/
theorem C85_block_comment_skipped (w r : List Byte) (hw : ¬ bytes "*/" <:+: w ++ bytes "*") (L : ℕ) (toks : List Tok) (e : Ending) :
    Lex (bytes "/*" ++ w ++ bytes "*/" ++ r) L toks e ↔ Lex r (L + newlines w) toks e := by
  have hs : bytes "/*" ++ w ++ bytes "*/" ++ r = bytes "/*" ++ (w ++ 42 :: 47 :: r) := by
    rw [List.append_assoc, List.append_assoc]; rfl
  rw [hs, lex_comment_iff (r := r) (longest_open_comment (w ++ 42 :: 47 :: r)) rfl (afterComment_first w r hw)]
  have hn : newlines (bytes "/*" ++ (w ++ 42 :: 47 :: r)) - newlines r = newlines w := by
    rw [newlines_append, newlines_append, newlines_cons, newlines_cons]
    have h1 : newlines (bytes "/*") = 0 := by decide
    have h2 : ((42 : Byte).val == 10).toNat = 0 := by decide
    have h3 : ((47 : Byte).val == 10).toNat = 0 := by decide
    rw [h1, h2, h3]; omega
  rw [hn]

example : ¬ bytes "*/" <:+: bytes " a // \n * / **" ++ bytes "*" := by decide +kernel

/-- C85 is violated: a comment in the last line, without a line break at the end of the input, is read as two divisions followed
by whatever the text of the comment happens to be. -/
theorem C85_violated_last_line (w : List Byte) (hw : ∀ b ∈ w, b ≠ 10) (L : ℕ) (toks : List Tok) (e : Ending)
    (h : Lex (bytes "//" ++ w) L toks e) : ∃ toks', toks = ⟨L, .divide, []⟩ :: toks' ∧ Lex (bytes "/" ++ w) L toks' e := by
  obtain ⟨toks', h1, h2⟩ := (lex_token_iff (longest_open_line w hw) (by decide)).1 h
  exact ⟨toks', h1, h2⟩

/-- For instance. -/
theorem C85_violated_example : Returns bufSize (bytes "a = 1; // done") (.ok [⟨1, .identifier, bytes "a"⟩, ⟨1, .equal, []⟩,
    ⟨1, .integer, bytes "1"⟩, ⟨1, .semicolon, []⟩, ⟨1, .divide, []⟩, ⟨1, .divide, []⟩, ⟨1, .identifier, bytes "done"⟩]) :=
  ⟨(by intro c h; cases h), 400, by decide +kernel⟩

/-! ## C86: text that is not a sequence of tokens is reported -/

/-- C86, partial: a message is written if and only if the scanner met a character with which no token begins, and the line in the
message is the line of this character.  What is missing: string literals and comments that are not closed, for which the claim
is false. -/
theorem C86_bad_character_reported_partial (B : ℕ) (input : List Byte) (line : ℕ) (toks : List Tok) (hfit : Fits B input) :
    Returns B input (.error line toks) ↔ Lex input 1 toks (.badCharacter line) := by
  obtain ⟨toks', e, hl, _⟩ := lex_total input
  have h := C84_longest_match B input hfit toks' e hl
  constructor
  · intro hr
    have := (h _).1 hr
    cases e with
    | badCharacter l => simp only [report, Outcome.error.injEq] at this; obtain ⟨rfl, rfl⟩ := this; exact hl
    | complete => cases this
    | openComment => cases this
    | openString => cases this
  · intro hl'
    exact (C84_longest_match B input hfit toks _ hl' _).2 rfl

/-- A bad character in the second line. -/
example : Fits bufSize (bytes "a = 1;\n ! b = 2;") ∧ Returns bufSize (bytes "a = 1;\n ! b = 2;") (.error 2
    [⟨1, .identifier, bytes "a"⟩, ⟨1, .equal, []⟩, ⟨1, .integer, bytes "1"⟩, ⟨1, .semicolon, []⟩]) :=
  ⟨fits_of_length (by decide), (by intro c h; cases h), 400, by decide +kernel⟩

/-- C86 is violated: a string literal that is not closed makes the scanner drop everything from its beginning to the end of the
input, and the scan succeeds. -/
theorem C86_violated_open_string (B : ℕ) (q : Byte) (hq : q = 34 ∨ q = 39) (w : List Byte) (hw : StringBody q w)
    (hfit : w.length + 1 < B) : Returns B (q :: w) (.ok []) := by
  have hl : Lex (q :: w) 1 [] .openString := by
    refine .openString (no_match_open hq hw) hq
  exact (C84_longest_match B (q :: w) (fits_of_length (by simpa using hfit)) _ _ hl _).2 rfl

example : StringBody 34 (bytes "name; b = 2;") := by
  repeat first | exact .nil | refine .plain (by decide) (by decide) ?_

/-- C86 is violated: a comment that is not closed makes the scanner drop everything from its beginning to the end of the input, and
the scan succeeds. -/
theorem C86_violated_open_comment (B : ℕ) (w : List Byte) (hw : ¬ bytes "*/" <:+: w) (hfit : w.length + 2 < B) :
    Returns B (bytes "/*" ++ w) (.ok []) := by
  have hl : Lex (bytes "/*" ++ w) 1 [] .openComment := by
    exact .openComment (longest_open_comment w) rfl (afterComment_none w hw)
  exact (C84_longest_match B _ (fits_of_length (by simp [bytes]; omega)) _ _ hl _).2 rfl

example : ¬ bytes "*/" <:+: bytes " a = 1; " ∧ (bytes " a = 1; ").length + 2 < bufSize := by decide +kernel

/-! ## C87: identifiers -/

/-- C87, partial: a letter or underscore with letters, digits and underscores behind it, which is not the name of a data type, is
read as one identifier with exactly this text, if it ends before a character that cannot belong to a name.  What is missing: the
names `e` and `E` before a sign and a digit, for which the claim is false. -/
theorem C87_identifier_partial (a : Byte) (w r : List Byte) (ha : letter a = true) (hw : ∀ b ∈ w, letterOrDigit b = true)
    (hkey : ∀ k ∈ keywords, a :: w ≠ bytes k) (hr : ∀ b, r.head? = some b → letterDigitColon b = false)
    (hexp : ∀ c d r', (a :: w = bytes "e" ∨ a :: w = bytes "E") → r = c :: d :: r' → (c = 43 ∨ c = 45) →
      inRanges d [(48, 57)] = false)
    (L : ℕ) (toks : List Tok) (e : Ending) :
    Lex (a :: w ++ r) L toks e ↔ ∃ toks', toks = ⟨L, .identifier, a :: w⟩ :: toks' ∧ Lex r L toks' e := by
  have hl := longest_ident a ha w hw r (by
    intro k hk h
    apply hkey k hk
    apply List.map_injective_iff.2 (fun x y => Fin.ext)
    rw [h]
    have hall : ∀ k ∈ keywords, k.toList.map Char.toNat = (bytes k).map Fin.val := by decide +kernel
    exact hall k hk) hr (by
    rintro ⟨rfl, hae, c, d, r', rfl, hc, hd⟩
    have := hexp c d r' (by rcases hae with rfl | rfl; right; rfl; left; rfl) rfl hc
    rw [hd] at this; cases this)
  rw [lex_token_iff hl (by decide)]
  have htake : ((a :: w) ++ r).take (w.length + 1) = a :: w := by
    rw [show w.length + 1 = (a :: w).length from rfl, List.take_left]
  have hdrop : ((a :: w) ++ r).drop (w.length + 1) = r := by
    rw [show w.length + 1 = (a :: w).length from rfl, List.drop_left]
  have hnl : newlines (a :: w) = 0 := by
    unfold newlines
    refine List.count_eq_zero_of_not_mem ?_
    intro h
    rcases List.mem_cons.1 h with rfl | h
    · revert ha; decide
    · have := hw 10 h; revert this; decide
  rw [htake, hdrop, hnl]
  rfl

/-- A name that begins with the name of a data type, before a sign. -/
example : letter 105 = true ∧ (∀ b ∈ bytes "nterval_2", letterOrDigit b = true) ∧ (∀ k ∈ keywords, bytes "interval_2" ≠ bytes k) ∧
    (∀ b, (bytes "+5").head? = some b → letterDigitColon b = false) := by decide +kernel

/-- C87 is violated: with a variable `e`, the expressions `e+5` and `e + 5` are not the same: the first one is a number without a
mantissa, the second one a sum. -/
theorem C87_violated_e_plus : Returns bufSize (bytes "x = e+5;") (.ok [⟨1, .identifier, bytes "x"⟩, ⟨1, .equal, []⟩,
      ⟨1, .float, bytes "e+5"⟩, ⟨1, .semicolon, []⟩]) ∧
    Returns bufSize (bytes "x = e + 5;") (.ok [⟨1, .identifier, bytes "x"⟩, ⟨1, .equal, []⟩,
      ⟨1, .identifier, bytes "e"⟩, ⟨1, .plus, []⟩, ⟨1, .integer, bytes "5"⟩, ⟨1, .semicolon, []⟩]) ∧
    Returns bufSize (bytes "x = d+5;") (.ok [⟨1, .identifier, bytes "x"⟩, ⟨1, .equal, []⟩,
      ⟨1, .identifier, bytes "d"⟩, ⟨1, .plus, []⟩, ⟨1, .integer, bytes "5"⟩, ⟨1, .semicolon, []⟩]) :=
  ⟨⟨(by intro c h; cases h), 400, by decide +kernel⟩, ⟨(by intro c h; cases h), 400, by decide +kernel⟩,
    ⟨(by intro c h; cases h), 400, by decide +kernel⟩⟩

/-! ## C88: string literals -/

/-- C88.  The value of a string literal consists of exactly the characters between its quotes; the other kind of quote, line
breaks, comments and tokens have no meaning inside. -/
theorem C88_literal_text (q : Byte) (hq : q = 34 ∨ q = 39) (w r : List Byte) (hw : StringBody q w) (L : ℕ) (toks : List Tok)
    (e : Ending) : Lex (q :: w ++ q :: r) L toks e ↔
      ∃ toks', toks = ⟨L + newlines w, .string, w⟩ :: toks' ∧ Lex r (L + newlines w) toks' e := by
  obtain ⟨i, hi, hl⟩ := longest_string hq hw r
  rw [lex_token_iff hl (by rw [hi]; decide)]
  have hlen : (q :: w ++ [q]).length = w.length + 2 := by simp
  have hs : q :: w ++ q :: r = (q :: w ++ [q]) ++ r := by simp
  have htake : (q :: w ++ q :: r).take (w.length + 2) = q :: w ++ [q] := by rw [hs, ← hlen, List.take_left]
  have hdrop : (q :: w ++ q :: r).drop (w.length + 2) = r := by rw [hs, ← hlen, List.drop_left]
  have hq10 : (q.val == 10).toNat = 0 := by rcases hq with rfl | rfl <;> decide
  have hnl : newlines (q :: w ++ [q]) = newlines w := by
    rw [newlines_append, newlines_cons, newlines_cons, hq10]; simp [newlines]
  rw [htake, hdrop, hnl, hi]
  have htext : ((q :: w ++ [q]).drop 1).take ((q :: w ++ [q]).length - 2) = w := by
    rw [hlen]; simp
  simp only [emitted, htext, List.singleton_append]

example : StringBody 39 (bytes "a // \"b\" \\' \n") := by
  repeat first | exact .nil | refine .plain (by decide) (by decide) ?_ | refine .escape ?_

/-- C88, the part about escapes: the backslash before a quote stays in the value, so that no literal between double quotes has a
value that begins with a double quote or has one without a backslash before it. -/
theorem C88_violated_escapes (q : Byte) (w : List Byte) (hw : StringBody q w) (u v : List Byte) (h : w = u ++ q :: v) (hq : q ≠ 92) :
    ∃ u', u = u' ++ [92] := by
  induction hw generalizing u with
  | nil => cases u <;> cases h
  | @plain b w h1 h2 _ ih =>
    cases u with
    | nil => simp only [List.nil_append, List.cons.injEq] at h; exact absurd h.1 h1
    | cons a u =>
      simp only [List.cons_append, List.cons.injEq] at h
      obtain ⟨u', rfl⟩ := ih u h.2
      exact ⟨a :: u', rfl⟩
  | @escape b w _ ih =>
    cases u with
    | nil => simp only [List.nil_append, List.cons.injEq] at h; exact absurd h.1.symm hq
    | cons a u =>
      simp only [List.cons_append, List.cons.injEq] at h
      obtain ⟨rfl, h⟩ := h
      cases u with
      | nil => exact ⟨[], rfl⟩
      | cons c u =>
        simp only [List.cons_append, List.cons.injEq] at h
        obtain ⟨u', rfl⟩ := ih u h.2
        exact ⟨92 :: c :: u', rfl⟩

/-- For instance. -/
theorem C88_violated_example : Returns bufSize (bytes "s = \"a\\\"b\";") (.ok [⟨1, .identifier, bytes "s"⟩, ⟨1, .equal, []⟩,
    ⟨1, .string, bytes "a\\\"b"⟩, ⟨1, .semicolon, []⟩]) :=
  ⟨(by intro c h; cases h), 400, by decide +kernel⟩

end Schnek.Props
