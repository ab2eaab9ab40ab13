import Verif.Lemma.ParserErrorText
import Verif.Props.Overflow

/-!
# Errors in a setup file (C139)
-/

namespace Schnek.Props

open Schnek.Deck Schnek.Spec Schnek.Spec.Lexer Schnek.Lemma.DeckText Schnek.Lemma.Scanner Schnek.Lemma.ParserError
open Schnek.Lemma.Lemon (returns_map returns_unique mapOut)
open Scanner (Kind Tok Byte bytes bufSize)

variable {F W : Type}

theorem map_lined (toks : List Tok) :
    (toks.map (lined (F := F) (W := W))).map (fun t => (t.1, t.2.1)) = toks.map fun t => (t.kind, ParserToken.atom t) := by
  rw [List.map_map]
  rfl

theorem concludeExc_forget (H : Host F W) (toks : List Tok) (o : Lemon.Outcome (ParserToken F W × Lines) (DeckState F W × Option Exc)) :
    (concludeExc H toks o).forget = conclude H toks (mapOut Prod.fst Prod.fst o) := by
  rcases o with c | s | ⟨_ | n, s⟩ | s | _
  · rfl
  · show (match s.1.finish H with
      | some D => ParseEnd.ok D
      | none => .undef).forget = match s.1.finish H with
      | some D' => .ok D'
      | none => .undef
    rcases s.1.finish H with _ | D <;> rfl
  · rfl
  · show ParseResult.syntaxError ((toks[toks.length - (n + 1)]?.map Tok.line).getD 0) =
      .syntaxError ((toks[(toks.map _).length - (n + 1)]?.map Tok.line).getD 0)
    rw [List.length_map]
  · rfl
  · rfl

/-- Reading a file with exceptions in view is reading it: it ends as `Parses` says (C94 - C98), and it ends for every file that `Parses`
something. -/
theorem C139_refines (H : Host F W) (D : DeckState F W) (text : List Byte) (r : ParseResult F W) :
    Parses H D text r ↔ ∃ r', ParsesExc H D text r' ∧ r'.forget = r := by
  constructor
  · rintro ⟨scan, toks, o, h1, h2, h3, rfl⟩
    obtain ⟨o', ho', -⟩ := C92_always_returns (excDeckAct H) (ParserToken.default, ⟨0, []⟩) (toks.map lined) (D, none)
    refine ⟨_, ⟨scan, toks, o', h1, h2, ho', rfl⟩, ?_⟩
    have := returns_map (projects_exc H) ho'
    rw [map_lined] at this
    rw [concludeExc_forget, returns_unique this h3]
  · rintro ⟨r', ⟨scan, toks, o, h1, h2, h3, rfl⟩, rfl⟩
    have := returns_map (projects_exc H) h3
    have hm : (toks.map fun t => (t.kind, (linedAtom t : ParserToken F W × Lines))).map (fun t => (t.1, t.2.1)) =
        toks.map fun t => (t.kind, ParserToken.atom t) := map_lined toks
    rw [hm] at this
    exact ⟨scan, toks, _, h1, h2, this, concludeExc_forget H toks o⟩

/-- the action that throws -/
theorem thrown_failing (H : Host F W) (D D' : DeckState F W) (hD : Sane D) (e : Exc) (text : List Byte)
    (hfit : Fits bufSize text) (toks : List Tok) (end_ : Ending) (hlex : Lex text 1 toks end_) (h : ParsesExc H D text (.thrown e D')) :
    ∃ s' : SaneState F W, s'.1 = (D', s'.1.2) ∧ e = s'.1.2.getD .nullPointer ∧
      Nonempty (Lemma.Lemon.Failing (saneAct H) Lemon.stackDepth (toks.map lined) ⟨(D, none), hD⟩ s') := by
  have hs : scanned (Lexer.report end_ toks) = some toks := by cases end_ <;> rfl
  obtain ⟨scan, toks', o, h1, h2, h3, h4⟩ := h
  rw [(C84_longest_match bufSize text hfit toks end_ hlex scan).1 h1, hs, Option.some.injEq] at h2
  subst h2
  obtain ⟨o', g1, g2⟩ := Lemma.Lemon.returns_result (saneAct H) (D := Lemon.stackDepth) (by decide) (ParserToken.default, ⟨0, []⟩)
    (toks.map lined) ⟨(D, none), hD⟩
  have g3 := returns_map (projects_sane H) g1
  have hm : (toks.map (lined (F := F) (W := W))).map (fun t => (t.1, id t.2)) = toks.map fun t => (t.kind, linedAtom t) := by
    rw [List.map_map]
    rfl
  rw [hm] at g3
  rw [returns_unique h3 g3] at h4
  cases g2 with
  | done pre post hp F hF hh s1 hs v s' he =>
    exfalso
    simp only [mapOut, concludeExc] at h4
    split at h4 <;> cases h4
  | error pre mid rest hp hpre hv hn s' =>
    exfalso
    rcases hr : rest.length with _ | n
    · rw [hr] at h4
      cases h4
    · rw [hr] at h4
      cases h4
  | thrown s' hf =>
    simp only [mapOut, concludeExc, ParseEnd.thrown.injEq] at h4
    exact ⟨s', Prod.ext h4.2.symm rfl, h4.1, hf⟩

/-- C139. If reading a setup file is ended by an exception that is not a syntax error, then the exception tells the truth about one
statement of the file: a `ParserError` has the line of the name, keyword or brace that is at fault, and what its message says is so; an
`EvaluationException` belongs to a function that is not registered, to a call with a wrong number of arguments or to a constant after `=`
that cannot be computed (`Reason`, C140). The statement has changed nothing (`D0` is what was there before it), except that variables may have been declared. -/
theorem C139_reported (P : Program F W) (text : List Byte) (hfit : Fits bufSize text) (toks : List Tok) (end_ : Ending)
    (hlex : Lex text 1 toks end_) (e : Exc) (D : DeckState F W) (h : ParsesExc P.host P.begin text (.thrown e D)) :
    ∃ pre part post D0, toks = pre ++ part ++ post ∧ OneStatement part ∧ Untouched D0 D ∧ Tells P.host D0 D part e := by
  obtain ⟨s', h1, h2, ⟨f⟩⟩ := thrown_failing P.host P.begin D (sane_begin P) e text hfit toks end_ hlex h
  obtain ⟨lost, before, deck, D0, within, part, post, e', g1, -, gu, g3, g4, g5⟩ := failing_tells P.host (lex_kinds hlex) f
  rw [g4, Option.getD_some] at h2
  subst h2
  have hD : s'.1.1 = D := by rw [h1]
  rw [hD] at g5 gu
  refine ⟨lost ++ (before ++ within), part, post, D0, by rw [g1]; simp, ?_, gu, g5⟩
  rintro a t b rfl hb
  exact g3 (within ++ a) t b (by simp) hb

/-- C139, partial: in a file of fewer than 100 tokens or without 98 consecutive tokens without `;`, `{` or `}`, the statement is the first one
that cannot be executed: all statements before it have been executed, and it has changed nothing, except that variables may have been
declared. What is missing: other files, of which the parser may lose the beginning (`C90_violated_lost_statement`). -/
theorem C139_first_fault_partial (P : Program F W) (text : List Byte) (hfit : Fits bufSize text) (toks : List Tok) (end_ : Ending)
    (hlex : Lex text 1 toks end_) (hlen : toks.length < 100 ∨ ShortStatements 98 (toks.map Tok.kind)) (e : Exc) (D : DeckState F W)
    (h : ParsesExc P.host P.begin text (.thrown e D)) :
    ∃ before deck D0 within part post, toks = before ++ (within ++ part) ++ post ∧
      (before = [] ∧ deck = [] ∨ IsDeck P.host.ops before deck) ∧ P.begin.run P.host deck = (true, D0) ∧ Untouched D0 D ∧
      OneStatement (within ++ part) ∧ Tells P.host D0 D part e := by
  obtain ⟨s', h1, h2, ⟨f⟩⟩ := thrown_failing P.host P.begin D (sane_begin P) e text hfit toks end_ hlex h
  obtain ⟨lost, before, deck, D0, within, part, post, e', g1, g2, g8, g3, g4, g5⟩ := failing_tells P.host (lex_kinds hlex) f
  rw [g4, Option.getD_some] at h2
  subst h2
  have hD : s'.1.1 = D := by rw [h1]
  rw [hD] at g5 g8
  rcases g2 with ⟨rfl, g6, g7⟩ | g2
  · exact ⟨before, deck, D0, within, part, post, by rw [g1]; simp, g6, g7, g8, g3, g5⟩
  · exfalso
    refine not_long (tokens := toks.map (lined (F := F) (W := W))) (post := (before ++ (within ++ (part ++ post))).map lined)
      (by rw [g1, List.map_append]) ?_ g2
    rw [List.length_map, List.map_map]
    exact hlen

/-- C139, partial: the exception is a `ParserError` or an `EvaluationException`, as the manual promises, if the integers and numbers in the
file can be converted and no operation on constants is undefined. What is missing: other numbers (`C139_violated_number`) and undefined
operations (`C139_violated_division`). -/
theorem C139_documented_partial (P : Program F W) (text : List Byte) (hfit : Fits bufSize text) (toks : List Tok) (end_ : Ending)
    (hlex : Lex text 1 toks end_) (hnum : ∀ t ∈ toks, meaning P.host.ops t ≠ none) (e : Exc) (D : DeckState F W)
    (hdef : e ≠ .evaluation .undefined) (h : ParsesExc P.host P.begin text (.thrown e D)) : Documented e := by
  obtain ⟨pre, part, post, D0, rfl, -, -, ht⟩ := C139_reported P text hfit toks end_ hlex e D h
  cases e with
  | badLexicalCast =>
    obtain ⟨t, ht, h1⟩ := ht
    refine hnum t (by simp [ht]) ?_
    unfold meaning
    rcases h1 with ⟨h1, h2⟩ | ⟨h1, h2⟩
    · rw [h1]
      simp [h2]
    · rw [h1]
      simp [h2]
  | typeMismatch => exact ht
  | nullPointer => exact ht
  | evaluation f =>
    cases f with
    | undefined => exact hdef rfl
    | badGet => exact ht.1 rfl
    | _ => trivial
  | _ => trivial

/-- C139, partial: a file of statements of at most 98 tokens of which one fails is ended by an exception, always the same, and what it leaves
behind is the effect of the statements up to the one that fails. What is missing: longer statements (`C89_violated_long_expression`). -/
theorem C139_detected_partial (H : Host F W) (D D' : DeckState F W) (text : List Byte) (hfit : Fits bufSize text) (toks : List Tok)
    (end_ : Ending) (hlex : Lex text 1 toks end_) (deck : List (Stmt F)) (hdeck : IsDeckUpTo H.ops 98 toks deck)
    (hrun : D.run H deck = (false, D')) : ∃ e, ∀ r, ParsesExc H D text r ↔ r = .thrown e D' := by
  have hs : scanned (Lexer.report end_ toks) = some toks := by cases end_ <;> rfl
  have hlexr := C84_longest_match bufSize text hfit toks end_ hlex
  obtain ⟨o, ho, huniq, -⟩ := C92_always_returns (excDeckAct H) (ParserToken.default, ⟨0, []⟩) (toks.map lined) (D, none)
  have hall : ∀ r, ParsesExc H D text r ↔ r = concludeExc H toks o := by
    intro r
    constructor
    · rintro ⟨scan, toks', o', h1, h2, h3, rfl⟩
      rw [(hlexr scan).1 h1, hs, Option.some.injEq] at h2
      subst h2
      rw [huniq o' h3]
    · rintro rfl
      exact ⟨_, toks, o, (hlexr _).2 rfl, hs, ho, rfl⟩
  have h1 := (C94_statements_partial H D text hfit toks end_ hlex deck hdeck _).1
    ((C139_refines H D text _).2 ⟨_, (hall _).2 rfl, rfl⟩)
  unfold readAs at h1
  rw [hrun] at h1
  obtain ⟨s, rfl⟩ : ∃ s, o = .thrown s := by
    rcases o with c | s | ⟨_ | n, s⟩ | s | _
    · cases h1
    · exfalso
      simp only [concludeExc] at h1
      split at h1 <;> cases h1
    · cases h1
    · cases h1
    · exact ⟨s, rfl⟩
    · cases h1
  refine ⟨s.2.getD .nullPointer, fun r => ?_⟩
  rw [hall r]
  have hD : s.1 = D' := by
    obtain ⟨hne, parts, ht, hP, hlen⟩ := hdeck
    have hne' : parts ≠ [] := by
      rintro rfl
      cases hP
      exact hne rfl
    obtain ⟨G, hG, he⟩ := ex_deck H parts deck hne' hP
    rw [← ht] at hG
    have he := he D
    rw [hrun] at he
    have h2 := (C89_executed_partial (deckAct H) ParserToken.default _ D G hG (height_upTo H hG hne ht hP hlen)).2 _ he
    have h3 := returns_map (projects_exc H) ho
    rw [map_lined] at h3
    have h4 := returns_unique h3 h2
    simp only [mapOut, Lemon.Outcome.thrown.injEq] at h4
    exact h4
  rw [← hD]
  rfl

/-- C139: a file of statements of any length of which one fails is not accepted. Either an exception is thrown, and what it leaves behind is the effect
of the statements up to the one that fails; or there are 98 consecutive tokens without `;`, `{` or `}`, and a syntax error is reported at a
token of the file. -/
theorem C139_detected (H : Host F W) (D D' : DeckState F W) (text : List Byte) (hfit : Fits bufSize text) (toks : List Tok)
    (end_ : Ending) (hlex : Lex text 1 toks end_) (deck : List (Stmt F)) (hdeck : IsDeck H.ops toks deck)
    (hrun : D.run H deck = (false, D')) :
    ∃ r, (∀ r', ParsesExc H D text r' ↔ r' = r) ∧ ((∃ e, r = .thrown e D') ∨
      (¬ ShortStatements 98 (toks.map Tok.kind) ∧ ∃ t ∈ toks, ∃ D1, r = .syntaxError t.line D1)) := by
  have hs : scanned (Lexer.report end_ toks) = some toks := by cases end_ <;> rfl
  have hlexr := C84_longest_match bufSize text hfit toks end_ hlex
  obtain ⟨o, ho, huniq, -⟩ := C92_always_returns (excDeckAct H) (ParserToken.default, ⟨0, []⟩) (toks.map lined) (D, none)
  have hall : ∀ r, ParsesExc H D text r ↔ r = concludeExc H toks o := by
    intro r
    constructor
    · rintro ⟨scan, toks', o', h1, h2, h3, rfl⟩
      rw [(hlexr scan).1 h1, hs, Option.some.injEq] at h2
      subst h2
      rw [huniq o' h3]
    · rintro rfl
      exact ⟨_, toks, o, (hlexr _).2 rfl, hs, ho, rfl⟩
  refine ⟨_, hall, ?_⟩
  rcases C149_text H D text toks end_ hlex deck hdeck _ ((C139_refines H D text _).2 ⟨_, (hall _).2 rfl, rfl⟩) with h1 | ⟨hns, t, ht, h1⟩
  · refine .inl ?_
    unfold readAs at h1
    rw [hrun] at h1
    obtain ⟨s, rfl⟩ : ∃ s, o = .thrown s := by
      rcases o with c | s | ⟨_ | n, s⟩ | s | _
      · cases h1
      · exfalso
        simp only [concludeExc] at h1
        split at h1 <;> cases h1
      · cases h1
      · cases h1
      · exact ⟨s, rfl⟩
      · cases h1
    refine ⟨s.2.getD .nullPointer, ?_⟩
    obtain ⟨hne, parts, ht, hP⟩ := hdeck
    obtain ⟨G, hG, he⟩ := ex_deck H parts deck (by rintro rfl; cases hP; exact hne rfl) hP
    rw [← ht] at hG
    have he := he D
    rw [hrun] at he
    have h3 := returns_map (projects_exc H) ho
    rw [map_lined] at h3
    obtain ⟨o', ho', hcases⟩ := C149_outcomes (deckAct H) ParserToken.default _ D G hG
    obtain rfl := returns_unique h3 ho'
    rcases hcases with ⟨v, D2, -, hv⟩ | ⟨D2, hv, hv'⟩ | ⟨-, i, -, hv⟩
    · cases hv
    · rw [he] at hv
      simp only [mapOut, Lemon.Outcome.thrown.injEq] at hv'
      cases hv
      exact congrArg (ParseEnd.thrown (s.2.getD .nullPointer)) hv'
    · cases hv
  · refine .inr ⟨hns, t, ht, ?_⟩
    rcases hr : concludeExc H toks o with _ | _ | ⟨line, D1⟩ | _ | _ <;> rw [hr] at h1 <;> cases h1
    exact ⟨D1, rfl⟩

/-! ## examples -/

/-- the exception, if there is one -/
def thrownExc (P : Program F W) (toks : List Tok) : Option Exc :=
  match Lemon.run (excDeckAct P.host) Lemon.stackDepth (ParserToken.default, ⟨0, []⟩) 1000
      (Lemon.start (ParserToken.default, ⟨0, []⟩) (toks.map lined) (P.begin, none)) with
  | .thrown s => s.2
  | _ => none

theorem parses_thrown {P : Program F W} {text : List Byte} {toks : List Tok} {e : Exc}
    (h0 : Scanner.Returns bufSize text (.ok toks)) (h : thrownExc P toks = some e) : ∃ D, ParsesExc P.host P.begin text (.thrown e D) := by
  unfold thrownExc at h
  rcases hr : Lemon.run (excDeckAct P.host) Lemon.stackDepth (ParserToken.default, ⟨0, []⟩) 1000
      (Lemon.start (ParserToken.default, ⟨0, []⟩) (toks.map lined) (P.begin, none)) with _ | _ | _ | s | _
  case thrown =>
    rw [hr] at h
    have hs : s.2 = some e := h
    refine ⟨s.1, _, toks, _, h0, rfl, ⟨(by intro c h; cases h), 1000, hr⟩, ?_⟩
    simp [concludeExc, hs]
  all_goals (rw [hr] at h; cases h)

/-- `textProgram`, where an integer has 32 bits -/
def wordProgram : Program ℚ Unit :=
  { exampleProgram with
    host := ⟨{ ratOps with readInt := fun s => (digits s).bind fun i => if i < 2147483648 then some i else none }, fun _ => none⟩ }

/-- C139 is violated: an integer that is too large is reported by `boost::bad_lexical_cast`, which is not an exception of the library and has
neither a line nor a file: `int a = 99999999999;` -/
theorem C139_violated_number : ∃ D e, ParsesExc wordProgram.host wordProgram.begin (bytes "int a = 99999999999;") (.thrown e D) ∧
    ¬ Documented e := by
  have h0 : Scanner.Returns bufSize (bytes "int a = 99999999999;") (.ok [⟨1, .intDecl, []⟩, ⟨1, .identifier, bytes "a"⟩,
      ⟨1, .equal, []⟩, ⟨1, .integer, bytes "99999999999"⟩, ⟨1, .semicolon, []⟩]) := ⟨(by intro c h; cases h), 600, by decide +kernel⟩
  obtain ⟨D, hD⟩ := parses_thrown (P := wordProgram) (e := .badLexicalCast) h0 (by decide +kernel)
  exact ⟨D, _, hD, fun h => h⟩

/-- C139 is violated: a division by zero in the file is not reported but has undefined behaviour: `int a = 1/0;` -/
theorem C139_violated_division : ∃ D e, ParsesExc wordProgram.host wordProgram.begin (bytes "int a = 1/0;") (.thrown e D) ∧
    ¬ Documented e := by
  have h0 : Scanner.Returns bufSize (bytes "int a = 1/0;") (.ok [⟨1, .intDecl, []⟩, ⟨1, .identifier, bytes "a"⟩,
      ⟨1, .equal, []⟩, ⟨1, .integer, bytes "1"⟩, ⟨1, .divide, []⟩, ⟨1, .integer, bytes "0"⟩, ⟨1, .semicolon, []⟩]) :=
    ⟨(by intro c h; cases h), 600, by decide +kernel⟩
  obtain ⟨D, hD⟩ := parses_thrown (P := wordProgram) (e := .evaluation .undefined) h0 (by decide +kernel)
  exact ⟨D, _, hD, fun h => h⟩

/-- The hypotheses of the theorems are met: `int a = 3;⏎int b = a +⏎ c;`, where `c` is not a variable. -/
example : ∃ toks end_ D, Lex (bytes "int a = 3;\nint b = a +\n c;") 1 toks end_ ∧ Fits bufSize (bytes "int a = 3;\nint b = a +\n c;") ∧
    toks.length < 100 ∧ (∀ t ∈ toks, meaning wordProgram.host.ops t ≠ none) ∧
    Exc.parserError (.notDefined "c") 3 ≠ .evaluation .undefined ∧
    ParsesExc wordProgram.host wordProgram.begin (bytes "int a = 3;\nint b = a +\n c;") (.thrown (.parserError (.notDefined "c") 3) D) := by
  have h0 : Scanner.Returns bufSize (bytes "int a = 3;\nint b = a +\n c;") (.ok [⟨1, .intDecl, []⟩, ⟨1, .identifier, bytes "a"⟩,
      ⟨1, .equal, []⟩, ⟨1, .integer, bytes "3"⟩, ⟨1, .semicolon, []⟩, ⟨2, .intDecl, []⟩, ⟨2, .identifier, bytes "b"⟩, ⟨2, .equal, []⟩,
      ⟨2, .identifier, bytes "a"⟩, ⟨2, .plus, []⟩, ⟨3, .identifier, bytes "c"⟩, ⟨3, .semicolon, []⟩]) :=
    ⟨(by intro c h; cases h), 600, by decide +kernel⟩
  obtain ⟨hfit, e, hlex⟩ := lex_of_run (line := 1) (.inl h0)
  obtain ⟨D, hD⟩ := parses_thrown (P := wordProgram) (e := .parserError (.notDefined "c") 3) h0 (by decide +kernel)
  exact ⟨_, e, D, hlex, hfit, by decide, by decide +kernel, by decide, hD⟩

/-- `int a = 3;⏎int b = 1,⏎ a = 2;`: the second declaration of `a` is reported, in line 3. -/
example : ∃ D, ParsesExc wordProgram.host wordProgram.begin (bytes "int a = 3;\nint b = 1,\n a = 2;")
    (.thrown (.parserError (.redeclaration "a") 3) D) :=
  parses_thrown (toks := [⟨1, .intDecl, []⟩, ⟨1, .identifier, bytes "a"⟩,
      ⟨1, .equal, []⟩, ⟨1, .integer, bytes "3"⟩, ⟨1, .semicolon, []⟩, ⟨2, .intDecl, []⟩, ⟨2, .identifier, bytes "b"⟩, ⟨2, .equal, []⟩,
      ⟨2, .integer, bytes "1"⟩, ⟨2, .comma, []⟩, ⟨3, .identifier, bytes "a"⟩, ⟨3, .equal, []⟩, ⟨3, .integer, bytes "2"⟩,
      ⟨3, .semicolon, []⟩])
    ⟨(by intro c h; cases h), 600, by decide +kernel⟩ (by decide +kernel)

/-- `int a = 0;⏎a = "x";`: the text is not an integer. -/
example : ∃ D, ParsesExc wordProgram.host wordProgram.begin (bytes "int a = 0;\na = \"x\";") (.thrown (.evaluation .typeCast) D) :=
  parses_thrown (toks := [⟨1, .intDecl, []⟩, ⟨1, .identifier, bytes "a"⟩, ⟨1, .equal, []⟩, ⟨1, .integer, bytes "0"⟩, ⟨1, .semicolon, []⟩,
      ⟨2, .identifier, bytes "a"⟩, ⟨2, .equal, []⟩, ⟨2, .string, bytes "x"⟩, ⟨2, .semicolon, []⟩])
    ⟨(by intro c h; cases h), 600, by decide +kernel⟩ (by decide +kernel)

/-- `}` in the outermost block -/
example : ∃ D, ParsesExc wordProgram.host wordProgram.begin (bytes "\n\n }") (.thrown (.parserError .extraBrace 3) D) :=
  parses_thrown (toks := [⟨3, .rbrace, []⟩]) ⟨(by intro c h; cases h), 600, by decide +kernel⟩ (by decide +kernel)

/-- The hypotheses of `C139_detected` and `C139_detected_partial` are met by `int a = 3;⏎b = a;`, where `b` is not a variable; the second statement
fails. -/
example : ∃ toks end_ D', Fits bufSize (bytes "int a = 3;\nb = a;") ∧ Lex (bytes "int a = 3;\nb = a;") 1 toks end_ ∧
    IsDeckUpTo wordProgram.host.ops 98 toks [.decl .int [("a", some (lit 3))], .assign "b" (ident "a")] ∧
    wordProgram.begin.run wordProgram.host [.decl .int [("a", some (lit 3))], .assign "b" (ident "a")] = (false, D') := by
  have h0 : Scanner.Returns bufSize (bytes "int a = 3;\nb = a;") (.ok [⟨1, .intDecl, []⟩, ⟨1, .identifier, bytes "a"⟩,
      ⟨1, .equal, []⟩, ⟨1, .integer, bytes "3"⟩, ⟨1, .semicolon, []⟩, ⟨2, .identifier, bytes "b"⟩, ⟨2, .equal, []⟩, ⟨2, .identifier, bytes "a"⟩,
      ⟨2, .semicolon, []⟩]) := ⟨(by intro c h; cases h), 600, by decide +kernel⟩
  obtain ⟨hfit, e, hlex⟩ := lex_of_run (line := 1) (.inl h0)
  refine ⟨_, e, (wordProgram.begin.run wordProgram.host [.decl .int [("a", some (lit 3))], .assign "b" (ident "a")]).2, hfit, hlex, ?_,
    Prod.ext (by decide +kernel) rfl⟩
  refine ⟨by simp, [[⟨1, .intDecl, []⟩, ⟨1, .identifier, bytes "a"⟩, ⟨1, .equal, []⟩, ⟨1, .integer, bytes "3"⟩, ⟨1, .semicolon, []⟩],
    [⟨2, .identifier, bytes "b"⟩, ⟨2, .equal, []⟩, ⟨2, .identifier, bytes "a"⟩, ⟨2, .semicolon, []⟩]], rfl,
    .cons ⟨_, ?_, .decl .int _ (by simp)⟩ (.cons ⟨_, ?_, .assign _ _⟩ .nil), by decide⟩
  all_goals rfl

end Schnek.Props
