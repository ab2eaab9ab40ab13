import Verif.Lemma.DeckTextRev
import Verif.Lemma.LexerLayout
import Verif.Props.Deck
import Verif.Props.Parser
import Verif.Props.Scanner

/-!
# From the text of a setup file to its effects (C94 - C98)
-/

namespace Schnek.Props

open Schnek.Deck Schnek.Spec Schnek.Spec.Lexer Schnek.Lemma.DeckText Schnek.Lemma.Scanner
open Scanner (Kind Tok Byte bytes bufSize)

variable {F W : Type}

/-- the tokens of a text that the scanner can read -/
theorem parses_iff (H : Host F W) (D : DeckState F W) (text : List Byte) (hfit : Fits bufSize text) (toks : List Tok) (e : Ending)
    (hlex : Lex text 1 toks e) (r : ParseResult F W) : Parses H D text r ↔
      ∃ o, Lemon.Returns (deckAct H) Lemon.stackDepth ParserToken.default (toks.map leafOf) D o ∧ r = conclude H toks o := by
  have h := C84_longest_match bufSize text hfit toks e hlex
  have hs : scanned (Lexer.report e toks) = some toks := by cases e <;> rfl
  constructor
  · rintro ⟨scan, toks', o, h1, h2, h3, h4⟩
    rw [(h scan).1 h1, hs, Option.some.injEq] at h2
    subst h2
    exact ⟨o, h3, h4⟩
  · rintro ⟨o, h3, h4⟩
    exact ⟨_, toks, o, (h _).2 rfl, hs, h3, h4⟩

theorem conclude_done (H : Host F W) (toks : List Tok) (D : DeckState F W) :
    conclude H toks (.done D) = match D.finish H with
      | some D' => .ok D'
      | none => .undef := rfl

/-! ## C94: a text means its statements -/

theorem reads (H : Host F W) (D : DeckState F W) (toks : List Tok) (deck : List (Stmt F)) (parts : List (List Tok)) (hne : deck ≠ [])
    (htoks : toks = parts.flatten) (hparts : List.Forall₂ (IsStatement H.ops) parts deck)
    (hfit : ∀ G : Forest (ParserToken F W), G.Derives [.n .deck] (toks.map leafOf) → G.height 1 ≤ Lemon.stackDepth) :
    ∃ o, Lemon.Returns (deckAct H) Lemon.stackDepth ParserToken.default (toks.map leafOf) D o ∧ conclude H toks o = readAs H D deck := by
  have hne' : parts ≠ [] := by
    rintro rfl
    cases hparts
    exact hne rfl
  obtain ⟨G, hG, he⟩ := ex_deck H parts deck hne' hparts
  rw [← htoks] at hG
  obtain ⟨h1, h2⟩ := C89_executed_partial (deckAct H) ParserToken.default _ D G hG (hfit G hG)
  have he := he D
  unfold readAs
  revert he
  rcases D.run H deck with ⟨_ | _, D'⟩ <;> intro he
  · exact ⟨_, h2 _ he, rfl⟩
  · exact ⟨_, h1 _ _ he, rfl⟩

/-- statements of at most 98 tokens fit on the stack -/
theorem height_upTo (H : Host F W) {toks : List Tok} {G : Forest (ParserToken F W)} (hG : G.Derives [.n .deck] (toks.map leafOf))
    {deck : List (Stmt F)} {parts : List (List Tok)} (hne : deck ≠ []) (ht : toks = parts.flatten)
    (hP : List.Forall₂ (IsStatement H.ops) parts deck) (hlen : ∀ part ∈ parts, part.length ≤ 98) : G.height 1 ≤ Lemon.stackDepth := by
  have hne' : parts ≠ [] := by
    rintro rfl
    cases hP
    exact hne rfl
  have hst : ∀ t ∈ parts.map (List.map (leafOf (F := F) (W := W))), t.length ≤ 98 ∧ ∃ G : Forest (ParserToken F W), G.Derives [.n .statement] t := by
    intro t ht
    obtain ⟨T, hT, rfl⟩ := List.mem_map.1 ht
    refine ⟨by rw [List.length_map]; exact hlen T hT, ?_⟩
    obtain ⟨st, hst⟩ : ∃ st, IsStatement H.ops T st := by
      clear * - hP hT
      induction hP with
      | nil => cases hT
      | cons h1 h2 ih =>
        rcases List.mem_cons.1 hT with rfl | hT
        · exact ⟨_, h1⟩
        · exact ih hT
    obtain ⟨r1, k1, ⟨h1, h2, h3, h4⟩, -⟩ := ex_statement H hst
    exact ⟨.node r1 k1 .nil, ⟨h2, h3, trivial⟩, by simp [Forest.syms, h1], by simp [Forest.yield, h4]⟩
  obtain ⟨G', hG', hh⟩ := Lemma.Lemon.deck_of_statements 98 _ (by simpa using hne') hst
  rw [← List.map_flatten, ← ht] at hG'
  rw [Lemma.Lemon.derivation_unique hG hG']
  exact hh

/-- C94, partial: a text whose tokens are statements of at most 98 tokens has the effect of these statements, executed in order, and
no other. The tokens are those before the first character that cannot begin one (`C86`). What is missing: longer statements, for which the parser's stack may be too small (`C89_violated_long_expression`), and the
file without statements. -/
theorem C94_statements_partial (H : Host F W) (D : DeckState F W) (text : List Byte) (hfit : Fits bufSize text) (toks : List Tok)
    (e : Ending) (hlex : Lex text 1 toks e) (deck : List (Stmt F)) (hdeck : IsDeckUpTo H.ops 98 toks deck) (r : ParseResult F W) :
    Parses H D text r ↔ r = readAs H D deck := by
  obtain ⟨hne, parts, ht, hP, hlen⟩ := hdeck
  rw [parses_iff H D text hfit toks _ hlex]
  have hne' : parts ≠ [] := by
    rintro rfl
    cases hP
    exact hne rfl
  obtain ⟨o, ho, hc⟩ := reads H D toks deck parts hne ht hP fun G hG => height_upTo H hG hne ht hP hlen
  constructor
  · rintro ⟨o', ho', rfl⟩
    rw [Lemma.Lemon.returns_unique ho' ho, hc]
  · rintro rfl
    exact ⟨o, ho, hc.symm⟩

/-- C94: tokens have one meaning only: no matter how they are read as statements, the effect is the same. -/
theorem C94_one_meaning (H : Host F W) (toks : List Tok) (deck deck' : List (Stmt F)) (h : IsDeck H.ops toks deck)
    (h' : IsDeck H.ops toks deck') (D : DeckState F W) : D.run H deck = D.run H deck' := by
  obtain ⟨hne, parts, ht, hP⟩ := h
  obtain ⟨hne', parts', ht', hP'⟩ := h'
  obtain ⟨G, hG, he⟩ := ex_deck H parts deck (by rintro rfl; cases hP; exact hne rfl) hP
  obtain ⟨G', hG', he'⟩ := ex_deck H parts' deck' (by rintro rfl; cases hP'; exact hne' rfl) hP'
  rw [← ht] at hG
  rw [← ht'] at hG'
  obtain rfl := Lemma.Lemon.derivation_unique hG hG'
  have := (he D).symm.trans (he' D)
  rw [Prod.mk.injEq] at this
  refine Prod.ext ?_ this.2
  have h1 := this.1
  revert h1
  rcases (D.run H deck).1 <;> rcases (D.run H deck').1 <;> simp

set_option maxRecDepth 20000 in
/-- C94 is violated: a file without tokens, for instance an empty one or one with nothing but a comment, is rejected with
`ParserInternalError`. -/
theorem C94_violated_no_statements (H : Host F W) (D : DeckState F W) (text : List Byte) (hfit : Fits bufSize text) (e : Ending)
    (hlex : Lex text 1 [] e) (r : ParseResult F W) : Parses H D text r ↔ r = .internalError := by
  rw [parses_iff H D text hfit [] e hlex]
  have ho : Lemon.Returns (deckAct H) Lemon.stackDepth ParserToken.default ([] : List (Kind × ParserToken F W)) D (.syntaxError 0 D) :=
    ⟨(by intro c h; cases h), 5, rfl⟩
  constructor
  · rintro ⟨o', ho', rfl⟩
    rw [Lemma.Lemon.returns_unique ho' ho]
    rfl
  · rintro rfl
    exact ⟨_, ho, rfl⟩

/-! ## C95: only sequences of statements are accepted -/

/-- C95, partial: a text of any length without 98 consecutive tokens without `;`, `{` or `}`, or with fewer than 100 tokens, is accepted if
and only if its tokens are statements, no statement throws, and the update of the dependent variables succeeds. What is missing: other
texts, of which the parser may lose the beginning (`C90_violated_lost_statement`), and that there is nothing in the text beyond the tokens. -/
theorem C95_accepted_iff_partial (H : Host F W) (D D' : DeckState F W) (text : List Byte) (hfit : Fits bufSize text) (toks : List Tok)
    (e : Ending) (hlex : Lex text 1 toks e) (hlen : toks.length < 100 ∨ ShortStatements 98 (toks.map Tok.kind)) :
    Parses H D text (.ok D') ↔ ∃ deck, IsDeck H.ops toks deck ∧ D.parse H deck = some D' := by
  rw [parses_iff H D text hfit toks e hlex]
  have hlen' : (toks.map (leafOf (F := F) (W := W))).length < 100 ∨
      ShortStatements 98 ((toks.map (leafOf (F := F) (W := W))).map Prod.fst) := by
    rw [List.length_map, List.map_map]
    exact hlen
  constructor
  · rintro ⟨o, ho, hc⟩
    obtain ⟨D1, rfl, hD1⟩ : ∃ D1, o = .done D1 ∧ D1.finish H = some D' := by
      rcases o with _ | D1 | ⟨_ | n, s⟩ | _ | _
      · cases hc
      · refine ⟨D1, rfl, ?_⟩
        rw [conclude_done] at hc
        revert hc
        rcases D1.finish H with _ | D2 <;> intro hc
        · cases hc
        · cases hc
          rfl
      all_goals cases hc
    obtain ⟨G, v, hG, he⟩ := (C90_accepted_iff_partial (deckAct H) ParserToken.default _ D D1 hlen').1 ho
    have hm : ∀ t ∈ toks, meaning H.ops t ≠ none := by
      intro t ht hn
      have := meaning_of_eval H G toks hG.valid hG.leaves (fun t ht => (lex_kinds hlex t ht).1) D D1 v he t ht hn
      rw [hG.roots] at this
      simp at this
    obtain ⟨parts, deck, hne, ht, hP⟩ := statements_of_derivation H.ops G toks hG hm
    refine ⟨deck, ⟨by rintro rfl; cases hP; exact hne rfl, parts, ht, hP⟩, ?_⟩
    obtain ⟨G', hG', he'⟩ := ex_deck H parts deck hne hP
    rw [← ht] at hG'
    obtain rfl := Lemma.Lemon.derivation_unique hG hG'
    have he' := he' D
    rw [he] at he'
    unfold DeckState.parse
    revert he'
    rcases D.run H deck with ⟨_ | _, D2⟩ <;> intro he'
    · cases he'
    · cases he'
      exact hD1
  · rintro ⟨deck, ⟨hne, parts, ht, hP⟩, hp⟩
    obtain ⟨o, ho, hc⟩ := reads H D toks deck parts hne ht hP fun G hG => by
      rcases hlen' with hlen | hlen
      · have := Lemma.Lemon.height_le G 1 hG.valid
        rw [hG.leaves] at this
        unfold Lemon.stackDepth
        omega
      · exact Lemma.Lemon.short_height hG hlen
    refine ⟨o, ho, ?_⟩
    rw [hc]
    unfold DeckState.parse at hp
    unfold readAs
    revert hp
    rcases D.run H deck with ⟨_ | _, D2⟩ <;> intro hp
    · cases hp
    · simp only at hp ⊢
      rw [hp]

/-! ## C96: syntax errors -/

/-- C96, partial: the line in a syntax error is the line of a token of the text. If this is one of the first 100 tokens, or if
there are no 98 consecutive tokens without `;`, `{` or `}` before it, then what comes before it can be continued to a file that follows the
grammar, and no sequence of statements begins with these tokens and the token itself. What is missing: other tokens, as the parser may
have lost the beginning of the text. -/
theorem C96_line_partial (H : Host F W) (D : DeckState F W) (text : List Byte) (toks : List Tok) (e : Ending) (hlex : Lex text 1 toks e)
    (line : ℕ) (h : Parses H D text (.syntaxError line)) :
    ∃ i t, toks[i]? = some t ∧ t.line = line ∧ (i < 100 ∨ ShortStatements 98 ((toks.take i).map Tok.kind) →
      (∃ more : List Kind, Grammatical (((toks.take i).map Tok.kind ++ more).map fun k => (k, ()))) ∧
      ∀ toks' deck, IsDeck H.ops toks' deck → ¬ toks.take (i + 1) <+: toks') := by
  have hfit : Fits bufSize text := by
    obtain ⟨scan, -, -, hs, -⟩ := h
    exact (C54_returns_iff_fits bufSize text).1 ⟨scan, hs⟩
  obtain ⟨o, ho, hc⟩ := (parses_iff H D text hfit toks e hlex _).1 h
  obtain ⟨o', h1, h2, -, -, h5⟩ := C92_always_returns (deckAct H) ParserToken.default (toks.map leafOf) D
  obtain rfl := h2 o ho
  rcases o with _ | D1 | ⟨_ | n, s⟩ | _ | _
  · cases hc
  · rw [conclude_done] at hc
    revert hc
    rcases D1.finish H with _ | D2 <;> (intro hc; cases hc)
  · cases hc
  · have hn := h5 (n + 1) s rfl
    rw [List.length_map] at hn
    have hlt : toks.length - (n + 1) < toks.length := by omega
    have hi : (Lemon.report (toks.map (leafOf (F := F) (W := W))) (.syntaxError (n + 1) s)) = .parserError (toks.length - (n + 1)) := by
      show Lemon.Report.parserError ((toks.map (leafOf (F := F) (W := W))).length - (n + 1)) = _
      rw [List.length_map]
    have hcl : (ParseResult.syntaxError line : ParseResult F W) = .syntaxError (((toks[toks.length - (n + 1)]?).map Tok.line).getD 0) := by
      rw [hc]
      unfold conclude
      have : (Lemon.report (toks.map fun t => (t.kind, (ParserToken.atom t : ParserToken F W))) (.syntaxError (n + 1) s)) =
        .parserError (toks.length - (n + 1)) := hi
      rw [this]
    rw [List.getElem?_eq_getElem hlt] at hcl
    simp only [Option.map_some, Option.getD_some, ParseResult.syntaxError.injEq] at hcl
    refine ⟨toks.length - (n + 1), _, List.getElem?_eq_getElem hlt, hcl.symm, fun h100 => ?_⟩
    obtain ⟨-, hmore, hnot⟩ := C93_error_position_partial (deckAct H) ParserToken.default _ D _ ho _ hi (by
      rw [← List.map_take, List.map_map]
      exact h100)
    constructor
    · obtain ⟨more, hmore⟩ := hmore
      refine ⟨more.map Prod.fst, ?_⟩
      have := grammatical_map (fun _ => ()) hmore
      simpa [List.map_take, Function.comp_def, leafOf] using this
    · rintro toks' deck ⟨hne, parts, rfl, hP⟩ ⟨rest, hrest⟩
      obtain ⟨G, hG, -⟩ := ex_deck H parts deck (by rintro rfl; cases hP; exact hne rfl) hP
      rw [← hrest, List.map_append, List.map_take] at hG
      exact hnot _ ⟨G, hG⟩
  · cases hc
  · cases hc

/-! ## C97: layout -/

/-- C97: the result depends only on the kinds of the tokens, and the texts of names and literals, apart from the line numbers in errors:
these are the lines of the same token. -/
theorem C97_layout (H : Host F W) (D : DeckState F W) (text text' : List Byte) (hfit : Fits bufSize text) (hfit' : Fits bufSize text')
    (toks toks' : List Tok) (e e' : Ending) (hlex : Lex text 1 toks e) (hlex' : Lex text' 1 toks' e')
    (hsame : toks.map (fun t => (t.kind, t.text)) = toks'.map fun t => (t.kind, t.text)) :
    (∀ r, (∀ line, r ≠ .syntaxError line) → (Parses H D text r ↔ Parses H D text' r)) ∧
    ∀ line, Parses H D text (.syntaxError line) → ∃ (i : ℕ) (t t' : Tok), toks[i]? = some t ∧ toks'[i]? = some t' ∧ t.line = line ∧
      Parses H D text' (.syntaxError t'.line) := by
  have hleaf : toks.map (leafOf (F := F) (W := W)) = toks'.map leafOf := by
    have h : ∀ l : List Tok, l.map (leafOf (F := F) (W := W)) = (l.map fun t => (t.kind, t.text)).map fun p => leafOf ⟨0, p.1, p.2⟩ := by
      intro l
      rw [List.map_map]
      rfl
    rw [h, h, hsame]
  have hlen : toks.length = toks'.length := by simpa using congrArg List.length hsame
  have hrep : ∀ o, (∀ i, Lemon.report (toks.map leafOf) o ≠ .parserError i) → conclude H toks o = conclude H toks' o := by
    intro o ho
    unfold conclude
    have h1 : (toks.map fun t => (t.kind, (ParserToken.atom t : ParserToken F W))) = toks.map leafOf := rfl
    have h2 : (toks'.map fun t => (t.kind, (ParserToken.atom t : ParserToken F W))) = toks'.map leafOf := rfl
    rw [h1, h2, ← hleaf]
    revert ho
    rcases Lemon.report (toks.map leafOf) o <;> intro ho
    · rfl
    · exact absurd rfl (ho _)
    all_goals rfl
  constructor
  · intro r hr
    rw [parses_iff H D text hfit toks e hlex, parses_iff H D text' hfit' toks' e' hlex', hleaf]
    have key : ∀ o, r = conclude H toks o ↔ r = conclude H toks' o := by
      intro o
      by_cases ho : ∀ i, Lemon.report (toks.map leafOf) o ≠ .parserError i
      · rw [hrep o ho]
      · push Not at ho
        obtain ⟨i, hi⟩ := ho
        have h1 : conclude H toks o = .syntaxError ((toks[i]?.map Tok.line).getD 0) := by
          unfold conclude
          rw [show (toks.map fun t => (t.kind, (ParserToken.atom t : ParserToken F W))) = toks.map leafOf from rfl, hi]
        have h2 : conclude H toks' o = .syntaxError ((toks'[i]?.map Tok.line).getD 0) := by
          unfold conclude
          rw [show (toks'.map fun t => (t.kind, (ParserToken.atom t : ParserToken F W))) = toks'.map leafOf from rfl, ← hleaf, hi]
        constructor
        · intro h
          exact absurd (h.trans h1) (hr _)
        · intro h
          exact absurd (h.trans h2) (hr _)
    simp only [key]
  · intro line h
    obtain ⟨o, ho, hc⟩ := (parses_iff H D text hfit toks e hlex _).1 h
    obtain ⟨o', -, h2, -, -, h5⟩ := C92_always_returns (deckAct H) ParserToken.default (toks.map leafOf) D
    obtain rfl := h2 o ho
    rcases o with _ | D1 | ⟨_ | n, s⟩ | _ | _
    · cases hc
    · rw [conclude_done] at hc
      revert hc
      rcases D1.finish H with _ | D2 <;> (intro hc; cases hc)
    · cases hc
    · have hn := h5 (n + 1) s rfl
      rw [List.length_map] at hn
      have hcl : ∀ l : List Tok, conclude H l (.syntaxError (n + 1) s) = .syntaxError (((l[l.length - (n + 1)]?).map Tok.line).getD 0) := by
        intro l
        show ParseResult.syntaxError _ = _
        rw [List.length_map]
      have hlt : toks.length - (n + 1) < toks.length := by omega
      have hlt' : toks.length - (n + 1) < toks'.length := by omega
      rw [hcl, List.getElem?_eq_getElem hlt] at hc
      refine ⟨_, _, _, List.getElem?_eq_getElem hlt, List.getElem?_eq_getElem hlt', ?_, ?_⟩
      · simpa using hc.symm
      · rw [parses_iff H D text' hfit' toks' e' hlex', ← hleaf]
        refine ⟨_, ho, ?_⟩
        rw [hcl, ← hlen, List.getElem?_eq_getElem hlt']
        rfl
    · cases hc
    · cases hc

/-- C97, partial: blanks and comments between tokens, beginning with a blank, do not change the result, apart from the line numbers in
errors. What is missing: texts that do not end with a line break, if there is a line break in what is inserted (then it may end a `//`
that was not a comment before, `C85_violated_last_line`), and comments without a blank before them (`a / /* */ b` is not
`a //* */ b`). -/
theorem C97_insert_partial (H : Host F W) (D : DeckState F W) (u v : List Byte) (b : Byte) (X : List Byte) (hb : blank b = true)
    (hX : Layout X) (hbegins : Begins (u ++ v) v) (hline : (10 : Byte) ∉ b :: X ∨ (u ++ v).getLast? = some 10)
    (hfit : Fits bufSize (u ++ v)) (hfit' : Fits bufSize (u ++ b :: X ++ v)) :
    (∀ r, (∀ line, r ≠ .syntaxError line) → (Parses H D (u ++ v) r ↔ Parses H D (u ++ b :: X ++ v) r)) ∧
    ((∃ line, Parses H D (u ++ v) (.syntaxError line)) ↔ ∃ line, Parses H D (u ++ b :: X ++ v) (.syntaxError line)) := by
  obtain ⟨toks, e, hlex, -⟩ := lex_total (u ++ v)
  obtain ⟨toks', e', hlex', hsame⟩ := lex_insert hbegins hb hX u rfl (fun _ => hline) 1 toks e hlex
  obtain ⟨h1, h2⟩ := C97_layout H D _ _ hfit hfit' toks toks' e e' hlex hlex' hsame
  obtain ⟨-, h3⟩ := C97_layout H D _ _ hfit' hfit toks' toks e' e hlex' hlex hsame.symm
  refine ⟨h1, ?_, ?_⟩
  · rintro ⟨line, h⟩
    obtain ⟨i, t, t', -, -, -, h⟩ := h2 line h
    exact ⟨_, h⟩
  · rintro ⟨line, h⟩
    obtain ⟨i, t, t', -, -, -, h⟩ := h3 line h
    exact ⟨_, h⟩

/-! ## C98: reading a file ends -/

/-- C98, partial: reading a file ends, in one way only. What is missing: files that do not fit the buffer of the scanner. -/
theorem C98_ends_partial (H : Host F W) (D : DeckState F W) (text : List Byte) (hfit : Fits bufSize text) :
    ∃! r, Parses H D text r := by
  obtain ⟨toks, e, hlex, -⟩ := lex_total text
  obtain ⟨o, h1, h2, -⟩ := C92_always_returns (deckAct H) ParserToken.default (toks.map leafOf) D
  refine ⟨conclude H toks o, (parses_iff H D text hfit toks e hlex _).2 ⟨o, h1, rfl⟩, ?_⟩
  intro r hr
  obtain ⟨o', h3, h4⟩ := (parses_iff H D text hfit toks e hlex _).1 hr
  rw [h4, h2 o' h3]

/-- C98 is violated: for a file with a name of 128 or more letters reading does not end with a result. -/
theorem C98_violated_long_name (H : Host F W) (D : DeckState F W) (n : ℕ) (hn : 128 ≤ n) (r : ParseResult F W) :
    ¬ Parses H D (List.replicate n 120) r := by
  rintro ⟨scan, -, -, h, -⟩
  exact (C54_violated_long_token n hn).1 scan h

/-! ## examples -/

/-- tokens found by running the scanner are the tokens of the text -/
theorem lex_of_run {text : List Byte} {toks : List Tok} {line : ℕ}
    (h : Scanner.Returns bufSize text (.ok toks) ∨ Scanner.Returns bufSize text (.error line toks)) :
    Fits bufSize text ∧ ∃ e, Lex text 1 toks e := by
  have hfit : Fits bufSize text := by
    rcases h with h | h <;> exact (C54_returns_iff_fits bufSize text).1 ⟨_, h⟩
  refine ⟨hfit, ?_⟩
  obtain ⟨toks', e, hlex, -⟩ := lex_total text
  have hr := C84_longest_match bufSize text hfit toks' e hlex
  have : toks' = toks := by
    rcases h with h | h
    · have := (hr _).1 h
      cases e <;> simp [Spec.Lexer.report] at this <;> first | exact this.symm | exact this.2.symm
    · have := (hr _).1 h
      cases e <;> simp [Spec.Lexer.report] at this <;> first | exact this.symm | exact this.2.symm
  exact ⟨e, this ▸ hlex⟩

/-- C95 is violated: what comes after a character that cannot begin a token, in an open string or in an open comment is ignored: the files
`int a = 1; ? int b = 2;`, `int a = 1; " int b = 2;` and `int a = 1; /* int b = 2;` have the same effect as `int a = 1;`. -/
theorem C95_violated_ignored_text (H : Host F W) (D : DeckState F W) (r : ParseResult F W) :
    (Parses H D (bytes "int a = 1; ? int b = 2;") r ↔ Parses H D (bytes "int a = 1;") r) ∧
    (Parses H D (bytes "int a = 1; \" int b = 2;") r ↔ Parses H D (bytes "int a = 1;") r) ∧
    (Parses H D (bytes "int a = 1; /* int b = 2;") r ↔ Parses H D (bytes "int a = 1;") r) := by
  have h0 : Scanner.Returns bufSize (bytes "int a = 1;") (.ok [⟨1, .intDecl, []⟩, ⟨1, .identifier, bytes "a"⟩, ⟨1, .equal, []⟩,
      ⟨1, .integer, bytes "1"⟩, ⟨1, .semicolon, []⟩]) := ⟨(by intro c h; cases h), 400, by decide +kernel⟩
  have h1 : Scanner.Returns bufSize (bytes "int a = 1; ? int b = 2;") (.error 1 [⟨1, .intDecl, []⟩, ⟨1, .identifier, bytes "a"⟩,
      ⟨1, .equal, []⟩, ⟨1, .integer, bytes "1"⟩, ⟨1, .semicolon, []⟩]) := ⟨(by intro c h; cases h), 400, by decide +kernel⟩
  have h2 : Scanner.Returns bufSize (bytes "int a = 1; \" int b = 2;") (.ok [⟨1, .intDecl, []⟩, ⟨1, .identifier, bytes "a"⟩,
      ⟨1, .equal, []⟩, ⟨1, .integer, bytes "1"⟩, ⟨1, .semicolon, []⟩]) := ⟨(by intro c h; cases h), 400, by decide +kernel⟩
  have h3 : Scanner.Returns bufSize (bytes "int a = 1; /* int b = 2;") (.ok [⟨1, .intDecl, []⟩, ⟨1, .identifier, bytes "a"⟩,
      ⟨1, .equal, []⟩, ⟨1, .integer, bytes "1"⟩, ⟨1, .semicolon, []⟩]) := ⟨(by intro c h; cases h), 400, by decide +kernel⟩
  obtain ⟨f0, e0, l0⟩ := lex_of_run (line := 1) (.inl h0)
  obtain ⟨f1, e1, l1⟩ := lex_of_run (.inr h1)
  obtain ⟨f2, e2, l2⟩ := lex_of_run (line := 1) (.inl h2)
  obtain ⟨f3, e3, l3⟩ := lex_of_run (line := 1) (.inl h3)
  rw [parses_iff H D _ f0 _ _ l0, parses_iff H D _ f1 _ _ l1, parses_iff H D _ f2 _ _ l2, parses_iff H D _ f3 _ _ l3]
  exact ⟨Iff.rfl, Iff.rfl, Iff.rfl⟩

/-- the value of decimal digits -/
def digits (s : String) : Option ℤ :=
  s.toList.foldl (fun r c => r.bind fun n => if c.isDigit then some (10 * n + (c.toNat - 48 : ℕ)) else none) (some 0)

/-- `exampleProgram`, with numbers -/
def textProgram : Program ℚ Unit := { exampleProgram with host := ⟨{ ratOps with readInt := digits }, fun _ => none⟩ }

/-- a setup file with a declaration, a comment, a block and an assignment -/
def textExample : List Byte := bytes "int a = 3;\n/* a\n block */ A c {\n  n = a*a - 2;\n}\n"

/-- its tokens -/
def tokensExample : List (List Tok) :=
  [[⟨1, .intDecl, []⟩, ⟨1, .identifier, bytes "a"⟩, ⟨1, .equal, []⟩, ⟨1, .integer, bytes "3"⟩, ⟨1, .semicolon, []⟩],
   [⟨3, .identifier, bytes "A"⟩, ⟨3, .identifier, bytes "c"⟩, ⟨3, .lbrace, []⟩],
   [⟨4, .identifier, bytes "n"⟩, ⟨4, .equal, []⟩, ⟨4, .identifier, bytes "a"⟩, ⟨4, .times, []⟩, ⟨4, .identifier, bytes "a"⟩,
     ⟨4, .minus, []⟩, ⟨4, .integer, bytes "2"⟩, ⟨4, .semicolon, []⟩],
   [⟨5, .rbrace, []⟩]]

/-- `a*a - 2` -/
def exprExample : Grammar.Expression ℚ :=
  .sub (.one (.mul (.one (.ident "a")) (.one (.one (.ident "a"))))) (.one (.one (.one (.lit (.int 2)))))

/-- its statements -/
def statementsExample : List (Stmt ℚ) :=
  [.decl .int [("a", some (lit 3))], .start "A" "c", .assign "n" exprExample, .stop]

theorem scan_example : Scanner.Returns bufSize textExample (.ok tokensExample.flatten) :=
  ⟨(by intro c h; cases h), 2000, by decide +kernel⟩

theorem deck_example : IsDeckUpTo textProgram.host.ops 98 tokensExample.flatten statementsExample := by
  refine ⟨by simp [statementsExample], tokensExample, rfl, ?_, by decide⟩
  refine .cons ⟨_, ?_, .decl .int _ (by simp)⟩ (.cons ⟨_, ?_, .start "A" "c"⟩ (.cons ⟨_, ?_, .assign "n" exprExample⟩
    (.cons ⟨_, ?_, .stop⟩ .nil)))
  all_goals rfl

/-- The hypotheses of C94, C95, C97 and C98 are met: the file is accepted, the block is made, and `n` is `3*3 - 2`. -/
example : (∃ e, Lex textExample 1 tokensExample.flatten e) ∧ Fits bufSize textExample ∧ tokensExample.flatten.length < 100 ∧
    ∃ D', Parses textProgram.host textProgram.begin textExample (.ok D') ∧
      summary (some D') = some ([("root", none, [1]), ("c", some 0, [])], [.int 0, .int 5, .int 3, .int 7]) := by
  obtain ⟨hfit, e, hlex⟩ := lex_of_run (line := 1) (.inl scan_example)
  refine ⟨⟨e, hlex⟩, hfit, by decide, ?_⟩
  have h := C94_statements_partial textProgram.host textProgram.begin textExample hfit _ e hlex _ deck_example
  have hs : summary (textProgram.begin.parse textProgram.host statementsExample) =
      some ([("root", none, [1]), ("c", some 0, [])], [.int 0, .int 5, .int 3, .int 7]) := by decide +kernel
  rcases hp : textProgram.begin.parse textProgram.host statementsExample with _ | D'
  · rw [hp] at hs
    cases hs
  · rw [hp] at hs
    obtain ⟨h1, h2, h3⟩ := deck_example
    exact ⟨D', (C95_accepted_iff_partial _ _ _ _ hfit _ e hlex (.inl (by decide))).2
      ⟨_, ⟨h1, h2, h3.1, h3.2.1⟩, hp⟩, hs⟩

set_option maxRecDepth 20000 in
/-- The hypotheses of C96 are met: in `int a = 3;⏎ int = 4;` the token after `int` is reported, in line 2. -/
example : Parses textProgram.host textProgram.begin (bytes "int a = 3;\nint = 4;") (.syntaxError 2) := by
  have h0 : Scanner.Returns bufSize (bytes "int a = 3;\nint = 4;") (.ok [⟨1, .intDecl, []⟩, ⟨1, .identifier, bytes "a"⟩, ⟨1, .equal, []⟩,
      ⟨1, .integer, bytes "3"⟩, ⟨1, .semicolon, []⟩, ⟨2, .intDecl, []⟩, ⟨2, .equal, []⟩, ⟨2, .integer, bytes "4"⟩,
      ⟨2, .semicolon, []⟩]) := ⟨(by intro c h; cases h), 600, by decide +kernel⟩
  exact ⟨_, _, _, h0, rfl, ⟨(by intro c h; cases h), 100, rfl⟩, rfl⟩

/-- the text `x=1+1+…+1+⏎1;` with fifty numbers, of which the last is in the second line -/
def overflowText : List Byte := bytes "x=1" ++ (List.replicate 48 (bytes "+1")).flatten ++ bytes "+\n1;"

/-- its tokens -/
def overflowTokens : List Tok :=
  [⟨1, .identifier, bytes "x"⟩, ⟨1, .equal, []⟩, ⟨1, .integer, bytes "1"⟩] ++
    (List.replicate 48 ([⟨1, .plus, []⟩, ⟨1, .integer, bytes "1"⟩] : List Tok)).flatten ++
    [⟨1, .plus, []⟩, ⟨2, .integer, bytes "1"⟩, ⟨2, .semicolon, []⟩]

/-- the sum of `n + 1` ones -/
def ones : ℕ → Grammar.Unsigned ℚ
  | 0 => .one (.one (.one (.lit (.int 1))))
  | n + 1 => .add (.one (.one (.lit (.int 1)))) (ones n)

/-- the sum of fifty ones -/
def fiftyOnes : Grammar.Expression ℚ := .add (.one (.one (.one (.lit (.int 1))))) (ones 48)

set_option maxRecDepth 20000 in
/-- C96 is violated: `x=1+1+…+1;` with fifty numbers is a statement, so that the last number does not end what can be continued, but it is
reported as the place of a syntax error: the stack of the parser overflows before it. -/
theorem C96_violated_overflow :
    (∃ e, Lex overflowText 1 overflowTokens e) ∧ IsDeck textProgram.host.ops overflowTokens [.assign "x" fiftyOnes] ∧
    Parses textProgram.host textProgram.begin overflowText (.syntaxError 2) := by
  have h0 : Scanner.Returns bufSize overflowText (.ok overflowTokens) := ⟨(by intro c h; cases h), 4000, by decide +kernel⟩
  refine ⟨(lex_of_run (line := 1) (.inl h0)).2, ⟨by simp, [_], (List.append_nil _).symm, .cons ⟨_, ?_, .assign "x" fiftyOnes⟩ .nil⟩, ?_⟩
  · rfl
  · have hc : (match Lemon.run (deckAct textProgram.host) Lemon.stackDepth ParserToken.default 1000 (Lemon.start ParserToken.default
        (overflowTokens.map fun t => (t.kind, ParserToken.atom t)) textProgram.begin) with
      | .syntaxError n _ => n == 2
      | _ => false) = true := by decide +kernel
    rcases hr : Lemon.run (deckAct textProgram.host) Lemon.stackDepth ParserToken.default 1000 (Lemon.start ParserToken.default
        (overflowTokens.map fun t => (t.kind, ParserToken.atom t)) textProgram.begin) with _ | _ | ⟨n, s⟩ | _ | _
    case syntaxError =>
      rw [hr] at hc
      obtain rfl : n = 2 := by simpa using hc
      exact ⟨_, _, _, h0, rfl, ⟨(by intro c h; cases h), 1000, hr⟩, rfl⟩
    all_goals (rw [hr] at hc; cases hc)

set_option maxRecDepth 20000 in
/-- The hypotheses of `C97_insert_partial` are met: ` /* x */⏎// y⏎` is inserted between `A` and `{`. -/
example : Layout (bytes "/* x */\n// y\n") ∧ Begins (bytes "A" ++ bytes "{\n}\n") (bytes "{\n}\n") ∧
    (bytes "A" ++ bytes "{\n}\n").getLast? = some 10 ∧ Fits bufSize (bytes "A" ++ bytes "{\n}\n") ∧
    Fits bufSize (bytes "A" ++ 32 :: bytes "/* x */\n// y\n" ++ bytes "{\n}\n") := by
  refine ⟨?_, ?_, by decide, fits_of_length (by decide), fits_of_length (by decide)⟩
  · show Layout (47 :: 42 :: (bytes " x " ++ 42 :: 47 :: (10 :: (47 :: 47 :: (bytes " y" ++ 10 :: [])))))
    exact .block (by decide) (.blank (by decide) (.line (by decide) .nil))
  · have h := longest_ident 65 (by decide) [] (by simp) (bytes "{\n}\n") (by decide) (by decide) (by simp)
    exact .later (.token h (by decide)) .here

set_option maxRecDepth 20000 in
/-- C97 is violated: `int a = 1; // x` is rejected if there is no line break at the end, but accepted with it. -/
theorem C97_violated_last_line :
    Parses textProgram.host textProgram.begin (bytes "int a = 1; // x") (.syntaxError 1) ∧
    ∃ D', Parses textProgram.host textProgram.begin (bytes "int a = 1; // x\n") (.ok D') := by
  constructor
  · have h0 : Scanner.Returns bufSize (bytes "int a = 1; // x") (.ok [⟨1, .intDecl, []⟩, ⟨1, .identifier, bytes "a"⟩, ⟨1, .equal, []⟩,
        ⟨1, .integer, bytes "1"⟩, ⟨1, .semicolon, []⟩, ⟨1, .divide, []⟩, ⟨1, .divide, []⟩, ⟨1, .identifier, bytes "x"⟩]) :=
      ⟨(by intro c h; cases h), 600, by decide +kernel⟩
    exact ⟨_, _, _, h0, rfl, ⟨(by intro c h; cases h), 100, rfl⟩, rfl⟩
  · have h0 : Scanner.Returns bufSize (bytes "int a = 1; // x\n") (.ok [⟨1, .intDecl, []⟩, ⟨1, .identifier, bytes "a"⟩, ⟨1, .equal, []⟩,
        ⟨1, .integer, bytes "1"⟩, ⟨1, .semicolon, []⟩]) := ⟨(by intro c h; cases h), 600, by decide +kernel⟩
    obtain ⟨hfit, e, hlex⟩ := lex_of_run (line := 1) (.inl h0)
    have hs : (textProgram.begin.parse textProgram.host [.decl .int [("a", some (lit 1))]]).isSome = true := by decide +kernel
    obtain ⟨D', hD⟩ := Option.isSome_iff_exists.1 hs
    refine ⟨D', (C95_accepted_iff_partial _ _ _ _ hfit _ e hlex (.inl (by decide))).2 ⟨_, ⟨by simp, [_], (List.append_nil _).symm,
      .cons ⟨_, ?_, .decl .int [("a", some (lit 1))] (by simp)⟩ .nil⟩, hD⟩⟩
    rfl

end Schnek.Props
