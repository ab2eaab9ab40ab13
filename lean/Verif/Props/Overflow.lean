import Verif.Lemma.LemonOverflow
import Verif.Props.DeckText

/-!
# C149: setup files that follow the grammar are executed as a whole, or rejected

The grammar, derivations, their evaluation and the number of stack entries they need are in Spec/DeckGrammar.lean, statements in
Spec/DeckText.lean.
-/

namespace Schnek.Props

open Schnek.Lemon Schnek.Deck Schnek.Spec Schnek.Spec.Lexer Schnek.Lemma.Lemon Schnek.Lemma.DeckText Schnek.Lemma.Scanner
open Scanner (Kind Tok Byte bytes bufSize)

section

variable {V S : Type}

/-- C149: a file that follows the grammar, however long its statements are, is accepted if and only if its derivation can be built with
the stack of the parser and none of the actions of the derivation throws, and then exactly these actions have been executed. Nothing
is dropped without notice. -/
theorem C149_accepted_iff (act : Actions V S) (v0 : V) (tokens : List (Kind × V)) (s s' : S) (T : Forest V)
    (hT : T.Derives [.n .deck] tokens) :
    Lemon.Returns act stackDepth v0 tokens s (.done s') ↔ T.height 1 ≤ stackDepth ∧ ∃ v, T.eval act s = (some v, s') := by
  by_cases hfit : T.height 1 ≤ stackDepth
  · have h := deck_run act stackDepth v0 T tokens hT hfit s
    constructor
    · intro hr
      refine ⟨hfit, ?_⟩
      have := returns_unique hr h
      revert this
      rcases T.eval act s with ⟨_ | v, s2⟩ <;> intro this
      · cases this
      · cases this
        exact ⟨v, rfl⟩
    · rintro ⟨-, v, he⟩
      rw [he] at h
      exact h
  · refine ⟨fun hr => ?_, fun h => absurd h.1 hfit⟩
    rcases deck_overflow act (D := stackDepth) (by decide) v0 T tokens hT (not_le.mp hfit) s with ⟨n, s2, h⟩ | ⟨s2, -, h⟩
    · exact absurd (returns_unique hr h) (by intro h; cases h)
    · exact absurd (returns_unique hr h) (by intro h; cases h)

/-- C149: reading a file that follows the grammar ends in one of three ways: all actions of the derivation have been executed and the file
is accepted; or the first exception of an action ends it; or, only when the stack is too small for the derivation, an error is reported at
a token of the file. -/
theorem C149_outcomes (act : Actions V S) (v0 : V) (tokens : List (Kind × V)) (s : S) (T : Forest V)
    (hT : T.Derives [.n .deck] tokens) :
    ∃ o, Lemon.Returns act stackDepth v0 tokens s o ∧
      ((∃ v s', T.eval act s = (some v, s') ∧ o = .done s') ∨ (∃ s', T.eval act s = (none, s') ∧ o = .thrown s') ∨
        (stackDepth < T.height 1 ∧ ∃ i < tokens.length, report tokens o = .parserError i)) := by
  by_cases hfit : T.height 1 ≤ stackDepth
  · refine ⟨_, deck_run act stackDepth v0 T tokens hT hfit s, ?_⟩
    rcases T.eval act s with ⟨_ | v, s2⟩
    · exact .inr (.inl ⟨_, rfl, rfl⟩)
    · exact .inl ⟨_, _, rfl, rfl⟩
  · rcases deck_overflow act (D := stackDepth) (by decide) v0 T tokens hT (not_le.mp hfit) s with ⟨n, s2, h⟩ | ⟨s2, he, h⟩
    · refine ⟨_, h, .inr (.inr ⟨not_le.mp hfit, tokens.length - (n + 1), ?_, rfl⟩)⟩
      obtain ⟨o', h1, h2, -, -, h5⟩ := C92_always_returns act v0 tokens s
      have hn := h5 (n + 1) s2 (h2 _ h).symm
      omega
    · exact ⟨_, h, .inr (.inl ⟨_, he, rfl⟩)⟩

end

variable {F W : Type}

/-- C149: a text whose tokens are statements of any length has the effect of these statements, executed in order, and no other, or a syntax
error is reported at a token of the text; the latter only if there are 98 consecutive tokens without `;`, `{` or `}`. The tokens
are those before the first character that cannot begin one (`C86`). -/
theorem C149_text (H : Host F W) (D : DeckState F W) (text : List Byte) (toks : List Tok) (e : Ending) (hlex : Lex text 1 toks e)
    (deck : List (Stmt F)) (hdeck : IsDeck H.ops toks deck) (r : ParseResult F W) (hr : Parses H D text r) :
    r = readAs H D deck ∨
      (¬ ShortStatements 98 (toks.map Tok.kind) ∧ ∃ t ∈ toks, r = .syntaxError t.line) := by
  have hfit : Fits bufSize text := by
    obtain ⟨scan, -, -, hs, -⟩ := hr
    exact (C54_returns_iff_fits bufSize text).1 ⟨scan, hs⟩
  obtain ⟨o, ho, rfl⟩ := (parses_iff H D text hfit toks e hlex _).1 hr
  obtain ⟨hne, parts, ht, hP⟩ := hdeck
  obtain ⟨G, hG, he⟩ := ex_deck H parts deck (by rintro rfl; cases hP; exact hne rfl) hP
  rw [← ht] at hG
  have he := he D
  obtain ⟨o', ho', hcases⟩ := C149_outcomes (deckAct H) ParserToken.default _ D G hG
  obtain rfl := returns_unique ho ho'
  rcases hcases with ⟨v, D', hv, rfl⟩ | ⟨D', hv, rfl⟩ | ⟨hh, i, hi, hrep⟩
  · refine .inl ?_
    rw [hv] at he
    unfold readAs
    revert he
    rcases D.run H deck with ⟨_ | _, D2⟩ <;> intro he
    · cases he
    · cases he
      rfl
  · refine .inl ?_
    rw [hv] at he
    unfold readAs
    revert he
    rcases D.run H deck with ⟨_ | _, D2⟩ <;> intro he
    · rfl
    · cases he
  · refine .inr ⟨fun hs => ?_, ?_⟩
    · have := short_height (n := 98) hG (by rw [List.map_map]; exact hs)
      unfold stackDepth at hh
      omega
    · rw [List.length_map] at hi
      refine ⟨toks[i], List.getElem_mem hi, ?_⟩
      unfold conclude
      have hrep' : Lemon.report (toks.map fun t => (t.kind, (ParserToken.atom t : ParserToken F W))) o = .parserError i := hrep
      rw [hrep']
      simp only
      rw [List.getElem?_eq_getElem hi]
      rfl

/-- C149: a text whose tokens are statements, if it is accepted, has made the variables and blocks that its statements make. -/
theorem C149_nothing_lost (H : Host F W) (D D' : DeckState F W) (text : List Byte) (toks : List Tok) (e : Ending)
    (hlex : Lex text 1 toks e) (deck : List (Stmt F)) (hdeck : IsDeck H.ops toks deck) (hr : Parses H D text (.ok D')) :
    D.parse H deck = some D' := by
  rcases C149_text H D text toks e hlex deck hdeck _ hr with h | ⟨-, t, -, h⟩
  · unfold readAs at h
    unfold DeckState.parse
    revert h
    rcases D.run H deck with ⟨_ | _, D1⟩ <;> intro h
    · cases h
    · simp only at h ⊢
      revert h
      rcases D1.finish H with _ | D2 <;> intro h
      · cases h
      · cases h
        rfl
  · cases h

/-- The hypotheses of `C149_accepted_iff` and `C149_outcomes` are met on both sides of the limit: by `y = 1 ;` and by sums of fifty
numbers and more. -/
example : (shortForest.Derives [.n .deck] (plain [.identifier, .equal, .integer, .semicolon]) ∧ shortForest.height 1 ≤ stackDepth) ∧
    ∀ n, ∃ T : Forest Unit, T.Derives [.n .deck] (plain (longSum (n + 49) ++ [.semicolon])) ∧ stackDepth < T.height 1 := by
  refine ⟨⟨shortForest_ok.1, by rw [shortForest_ok.2]; decide⟩, fun n => ?_⟩
  obtain ⟨⟨T, hT⟩, s, hs, -⟩ := C89_violated_long_expression n
  refine ⟨T, hT, ?_⟩
  by_contra hfit
  have h := deck_run logAct stackDepth () T _ hT (not_lt.mp hfit) []
  have := returns_unique hs h
  revert this
  rcases T.eval logAct [] with ⟨_ | v, s2⟩ <;> (intro this; cases this)

/-- The hypotheses of `C149_text` are met by a text for which a syntax error is reported: the sum of fifty numbers of
`C96_violated_overflow`. -/
example : (∃ e, Lex overflowText 1 overflowTokens e) ∧ IsDeck textProgram.host.ops overflowTokens [.assign "x" fiftyOnes] ∧
    Parses textProgram.host textProgram.begin overflowText (.syntaxError 2) := C96_violated_overflow

end Schnek.Props
