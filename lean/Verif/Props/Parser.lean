import Verif.Lemma.LemonHeight

/-!
# Properties of the parser of setup files

The grammar, derivations and their evaluation are in Spec/DeckGrammar.lean, the parser in Model/Lemon.lean.  The actions of the rules
are arbitrary here: `act r vs s` is what the action of rule `r` does with the values `vs` of the symbols on the right hand side and
with the state `s` of the program.
-/

namespace Schnek.Props

open Schnek.Lemon Schnek.Spec Schnek.Lemma.Lemon
open Scanner (Kind)

variable {V S : Type}

/-! ## C89: setup files that follow the grammar -/

/-- C89, partial: if the tokens have a derivation that can be built with the stack of the parser, then the parser executes the
actions of this derivation from bottom to top and from left to right; it accepts the file if none of them throws, and otherwise stops at
the exception.  What is missing: derivations for which the stack is too small, for which the claim is false. -/
theorem C89_executed_partial (act : Actions V S) (v0 : V) (tokens : List (Kind × V)) (s : S) (F : Forest V)
    (hF : F.Derives [.n .deck] tokens) (hfit : F.height 1 ≤ stackDepth) :
    (∀ v s', F.eval act s = (some v, s') → Returns act stackDepth v0 tokens s (.done s')) ∧
    (∀ s', F.eval act s = (none, s') → Returns act stackDepth v0 tokens s (.thrown s')) := by
  have h := deck_run act stackDepth v0 F tokens hF hfit s
  constructor
  · intro v s' he
    rw [he] at h
    exact h
  · intro s' he
    rw [he] at h
    exact h

/-- C89, partial: the stack is large enough, however long the file is, if every statement has at most 98 tokens. -/
theorem C89_short_statements_partial (act : Actions V S) (v0 : V) (statements : List (List (Kind × V))) (hne : statements ≠ [])
    (h : ∀ t ∈ statements, t.length ≤ 98 ∧ ∃ F : Forest V, F.Derives [.n .statement] t) (s : S) :
    ∃ F : Forest V, F.Derives [.n .deck] statements.flatten ∧
      (∀ v s', F.eval act s = (some v, s') → Returns act stackDepth v0 statements.flatten s (.done s')) ∧
      (∀ s', F.eval act s = (none, s') → Returns act stackDepth v0 statements.flatten s (.thrown s')) := by
  obtain ⟨F, hF, hh⟩ := deck_of_statements 98 statements hne h
  exact ⟨F, hF, C89_executed_partial act v0 _ s F hF hh⟩

/-- `y = 1 ;` meets the conditions of `C89_executed_partial`. -/
example : shortForest.Derives [.n .deck] (plain [.identifier, .equal, .integer, .semicolon]) ∧
    shortForest.height 1 ≤ stackDepth ∧ ∃ v s', shortForest.eval logAct [] = (some v, s') :=
  ⟨shortForest_ok.1, by rw [shortForest_ok.2]; decide, shortForest_eval [] |>.imp fun _ h => ⟨_, h⟩⟩

/-- … and a hundred of them the conditions of `C89_short_statements_partial`. -/
example : ∀ t ∈ List.replicate 100 (plain [.identifier, .equal, .integer, .semicolon]), t.length ≤ 98 ∧
    ∃ F : Forest Unit, F.Derives [.n .statement] t := by
  intro t ht
  obtain rfl := List.eq_of_mem_replicate ht
  refine ⟨by decide, .node 4 (.node 16 (.tok .identifier () (.tok .equal () (.node 19 (.node 25
    (oneTerm .nil) .nil) .nil))) (.tok .semicolon () .nil)) .nil, ⟨rfl, ⟨rfl, ⟨rfl, ⟨rfl, ?_, trivial⟩, trivial⟩, trivial⟩, trivial⟩, rfl, rfl⟩
  exact (oneTerm_ok _).1.mpr trivial

/-- C89 is violated: `x = 1 + 1 + … + 1 ;` follows the grammar, but with fifty numbers or more it is rejected with an error at the
fiftieth number, although no action throws. -/
theorem C89_violated_long_expression (n : ℕ) :
    Grammatical (plain (longSum (n + 49) ++ [.semicolon])) ∧
    ∃ s, Returns logAct stackDepth () (plain (longSum (n + 49) ++ [.semicolon])) [] (.syntaxError (2 * n + 2) s) ∧
      report (plain (longSum (n + 49) ++ [.semicolon])) (.syntaxError (V := Unit) (2 * n + 2) s) = .parserError 100 := by
  refine ⟨longSum_grammatical (n + 48), ?_⟩
  obtain ⟨s, h⟩ := longSum_error n
  refine ⟨s, h, ?_⟩
  have hlen : (plain (longSum (n + 49) ++ [Kind.semicolon])).length = 2 * n + 102 := by
    simp [plain, longSum]
    omega
  show Report.parserError _ = _
  rw [hlen]
  congr 1
  omega

/-! ## C90: setup files that are accepted -/

/-- C90, partial: if the parser accepts, then the tokens, or those that are left after 100 or more, with 98 consecutive ones without `;`,
`{` or `}`, have been dropped without notice, follow the grammar, and the actions of their derivation have been executed from bottom to top and from left to right, none of them throwing.  What is
missing: that nothing is dropped, which is false. -/
theorem C90_accepted_partial (act : Actions V S) (v0 : V) (tokens : List (Kind × V)) (s s' : S)
    (h : Returns act stackDepth v0 tokens s (.done s')) :
    ∃ (dropped kept : List (Kind × V)) (F : Forest V) (v : List V) (s1 : S), tokens = dropped ++ kept ∧
      F.Derives [.n .deck] kept ∧ F.eval act s1 = (some v, s') ∧ (dropped = [] ∧ s1 = s ∨ 100 ≤ dropped.length ∧ ¬ ShortStatements 98 (dropped.map Prod.fst)) := by
  obtain ⟨o, h1, h2⟩ := returns_result act (D := stackDepth) (by decide) v0 tokens s
  obtain rfl := returns_unique h h1
  cases h2 with
  | done pre post hp F hF hh s1 hs v s' he =>
    refine ⟨pre, post, F, v, s1, hp, hF, he, hs.imp id fun h => ⟨h.1, ?_⟩⟩
    simpa using h.not_short (D := 98) (l' := [])

/-- too many tokens without the end of a statement are dropped only if there are such tokens -/
theorem not_long {tokens pre post : List (Kind × V)} (hp : tokens = pre ++ post)
    (hlen : tokens.length < 100 ∨ ShortStatements 98 (tokens.map Prod.fst)) : ¬ Long stackDepth pre := by
  intro h
  rcases hlen with hlen | hlen
  · have := h.1
    unfold stackDepth at this
    rw [hp, List.length_append] at hlen
    omega
  · rw [hp] at hlen
    exact h.not_short (D := 98) hlen

/-- C90, partial: files of any length without 98 consecutive tokens without `;`, `{` or `}`, and all files with less than 100 tokens, are
accepted if and only if they follow the grammar and no action throws. -/
theorem C90_accepted_iff_partial (act : Actions V S) (v0 : V) (tokens : List (Kind × V)) (s s' : S)
    (hlen : tokens.length < 100 ∨ ShortStatements 98 (tokens.map Prod.fst)) :
    Returns act stackDepth v0 tokens s (.done s') ↔
      ∃ (F : Forest V) (v : List V), F.Derives [.n .deck] tokens ∧ F.eval act s = (some v, s') := by
  constructor
  · intro h
    obtain ⟨o, h1, h2⟩ := returns_result act (D := stackDepth) (by decide) v0 tokens s
    obtain rfl := returns_unique h h1
    cases h2 with
    | done pre post hp F hF hh s1 hs v s' he =>
      rcases hs with ⟨rfl, rfl⟩ | hs
      · exact ⟨F, v, by rw [hp]; exact hF, he⟩
      · exact absurd hs (not_long hp hlen)
  · rintro ⟨F, v, hF, he⟩
    refine (C89_executed_partial act v0 tokens s F hF ?_).1 v s' he
    rcases hlen with hlen | hlen
    · have hh := height_le F 1 hF.valid
      rw [hF.leaves] at hh
      unfold stackDepth
      omega
    · exact short_height hF hlen

/-- An accepted file. -/
example : ∃ s', Returns logAct stackDepth () (plain [.identifier, .equal, .integer, .semicolon]) [] (.done s') := by
  obtain ⟨v, h⟩ := shortForest_eval []
  exact ⟨_, (C90_accepted_iff_partial logAct () _ [] _ (.inl (by decide))).2 ⟨shortForest, v, shortForest_ok.1, h⟩⟩

/-- A file of any length that meets the condition of `C90_accepted_iff_partial`. -/
example (n : ℕ) : ShortStatements 98 (List.replicate n [Kind.identifier, .equal, .integer, .semicolon]).flatten :=
  short_of_parts (by decide) _ fun p hp => by
    obtain rfl := List.eq_of_mem_replicate hp
    exact ⟨by decide, [.identifier, .equal, .integer], .semicolon, rfl, rfl⟩

/-- C90 is violated: `x = 1 + 1 + … + 1 + y = 1 ;` with 49 numbers in the sum does not follow the grammar and has two assignments, but
it is accepted, and one assignment has been executed (rule 4 is `statement ::= assignment ;`). -/
theorem C90_violated_lost_statement :
    ¬ Grammatical (plain lostDeck) ∧ lostDeck.count .equal = 2 ∧
    ∃ s', Returns logAct stackDepth () (plain lostDeck) [] (.done s') ∧ s'.count 4 = 1 :=
  ⟨lost_not_grammatical, by decide +kernel, lost_accepted⟩

/-! ## C91: only one meaning -/

/-- C91.  A setup file has at most one derivation. -/
theorem C91_unambiguous (tokens : List (Kind × V)) (F F' : Forest V) (h : F.Derives [.n .deck] tokens)
    (h' : F'.Derives [.n .deck] tokens) : F = F' := derivation_unique h h'

example : shortForest.Derives [.n .deck] (plain [.identifier, .equal, .integer, .semicolon]) := shortForest_ok.1

/-! ## C92: the parser always returns -/

/-- C92.  For every list of tokens the parser comes to an end, in exactly one way, and never with a failed assertion or an access
outside of its stack; an exception that is not a syntax error is the exception of an action. -/
theorem C92_always_returns (act : Actions V S) (v0 : V) (tokens : List (Kind × V)) (s : S) :
    ∃ o, Returns act stackDepth v0 tokens s o ∧ (∀ o', Returns act stackDepth v0 tokens s o' → o' = o) ∧ o ≠ .undef ∧
      (∀ s', o = .thrown s' → ∃ r vs s1, act r vs s1 = (none, s')) ∧ ∀ n s', o = .syntaxError n s' → n ≤ tokens.length := by
  obtain ⟨o, h1, h2⟩ := returns_result act (D := stackDepth) (by decide) v0 tokens s
  refine ⟨o, h1, fun o' h => returns_unique h h1, ?_, ?_, ?_⟩
  · rintro rfl
    cases h2
  · rintro s' rfl
    cases h2 with
    | thrown s' hf =>
      obtain ⟨f⟩ := hf
      exact ⟨f.rule, f.ws, f.s2, f.throws⟩
  · rintro n s' rfl
    cases h2 with
    | error pre mid rest hp _ _ _ s' =>
      rw [hp, List.length_append, List.length_append]
      omega

/-! ## C93: the position of a syntax error -/

/-- C93, partial: a syntax error is reported at the first token that cannot follow the tokens before it in any setup file.  What is
missing: errors after 98 or more tokens without `;`, `{` or `}` that are not among the first 100 tokens, and errors at the end of the file,
which are not reported with a position. -/
theorem C93_error_position_partial (act : Actions V S) (v0 : V) (tokens : List (Kind × V)) (s : S) (o : Outcome V S)
    (h : Returns act stackDepth v0 tokens s o) (i : ℕ) (hr : report tokens o = .parserError i)
    (hi : i < 100 ∨ ShortStatements 98 ((tokens.take i).map Prod.fst)) :
    i < tokens.length ∧ (∃ more, Grammatical (tokens.take i ++ more)) ∧ ∀ more, ¬ Grammatical (tokens.take (i + 1) ++ more) := by
  obtain ⟨o', h1, h2⟩ := returns_result act (D := stackDepth) (by decide) v0 tokens s
  obtain rfl := returns_unique h h1
  cases h2 with
  | done => cases hr
  | thrown => cases hr
  | error pre mid rest hp hd hv hn s' =>
    cases rest with
    | nil => cases hr
    | cons t rest =>
      have hi' : pre.length + mid.length = i := by
        have h3 : tokens.length - (rest.length + 1) = i := by
          simpa only [report, List.length_cons, Report.parserError.injEq] using hr
        rw [hp, List.length_append, List.length_append, List.length_cons] at h3
        omega
      have hpre : pre = [] := by
        rcases hd with hd | hd
        · exact hd
        · have htake : tokens.take i = pre ++ mid := by
            rw [hp, ← List.append_assoc, List.take_left']
            rw [List.length_append, hi']
          refine absurd hd (not_long htake ?_)
          refine hi.imp (fun h => ?_) id
          rw [htake, List.length_append]
          omega
      subst hpre
      rw [List.nil_append] at hp
      rw [List.length_nil, Nat.zero_add] at hi'
      subst hp
      subst hi'
      refine ⟨by simp, ?_, ?_⟩
      · rw [List.take_left]
        exact hv
      · intro more
        have : (mid ++ t :: rest).take (mid.length + 1) = mid ++ [t] := by
          rw [List.take_append, List.take_of_length_le (by omega)]
          simp
        rw [this, List.append_assoc]
        exact hn _ rfl

/-- C93, partial: if no action throws, every file without 98 consecutive tokens without `;`, `{` or `}` (or with less than 100 tokens) that
cannot be continued to a setup file is reported as a syntax error with a position. -/
theorem C93_error_reported_partial (act : Actions V S) (hact : ∀ r vs s, (act r vs s).1 ≠ none) (v0 : V) (tokens : List (Kind × V))
    (s : S) (hlen : tokens.length < 100 ∨ ShortStatements 98 (tokens.map Prod.fst)) (hbad : ∀ more, ¬ Grammatical (tokens ++ more)) :
    ∃ o i, Returns act stackDepth v0 tokens s o ∧ report tokens o = .parserError i := by
  obtain ⟨o, h1, h2⟩ := returns_result act (D := stackDepth) (by decide) v0 tokens s
  cases h2 with
  | done pre post hp F hF hh s1 hs v s' he =>
    rcases hs with ⟨rfl, -⟩ | hs
    · refine absurd ⟨F, ?_⟩ (hbad [])
      rw [List.append_nil, hp]
      exact hF
    · exact absurd hs (not_long hp hlen)
  | thrown s' hf =>
    obtain ⟨f⟩ := hf
    exact absurd (by rw [f.throws]) (hact f.rule f.ws f.s2)
  | error pre mid rest hp hd hv hn s' =>
    cases rest with
    | cons t rest => exact ⟨_, _, h1, rfl⟩
    | nil =>
      rcases hd with rfl | hd
      · obtain ⟨post, hpost⟩ := hv
        refine absurd ?_ (hbad post)
        rw [hp, List.nil_append, List.append_nil]
        exact hpost
      · exact absurd hd (not_long hp hlen)

/-- `x = = 1 ;`: the error is at the second `=`. -/
example : ∃ o, Returns logAct stackDepth () (plain [.identifier, .equal, .equal, .integer, .semicolon]) [] o ∧
    report (plain [.identifier, .equal, .equal, .integer, .semicolon]) o = .parserError 2 :=
  ⟨.syntaxError 3 [], returns_of_check 10 (by decide +kernel), rfl⟩

/-- … and such a file cannot be continued. -/
example (more : List (Kind × Unit)) : ¬ Grammatical (plain [.identifier, .equal, .equal, .integer, .semicolon] ++ more) := by
  have h := (C93_error_position_partial logAct () (plain [.identifier, .equal, .equal, .integer, .semicolon]) []
    (.syntaxError 3 []) (returns_of_check 10 (by decide +kernel)) 2 rfl (.inl (by decide))).2.2
  exact h (plain [.integer, .semicolon] ++ more)

/-- C93 is violated: whenever a file without 98 consecutive tokens without `;`, `{` or `}` (or with less than 100 tokens) ends too early, the parser throws `ParserInternalError`, which is not
`ParserError` and has no position, provided that no action throws. -/
theorem C93_violated_end_of_file (act : Actions V S) (hact : ∀ r vs s, (act r vs s).1 ≠ none) (v0 : V) (tokens : List (Kind × V))
    (s : S) (hlen : tokens.length < 100 ∨ ShortStatements 98 (tokens.map Prod.fst)) (hbad : ¬ Grammatical tokens) (hmore : ∃ more, Grammatical (tokens ++ more)) :
    ∃ o, Returns act stackDepth v0 tokens s o ∧ report tokens o = .internalError := by
  obtain ⟨o, h1, h2⟩ := returns_result act (D := stackDepth) (by decide) v0 tokens s
  cases h2 with
  | done pre post hp F hF hh s1 hs v s' he =>
    rcases hs with ⟨rfl, -⟩ | hs
    · exact absurd ⟨F, by rw [hp]; exact hF⟩ hbad
    · exact absurd hs (not_long hp hlen)
  | thrown s' hf =>
    obtain ⟨f⟩ := hf
    exact absurd (by rw [f.throws]) (hact f.rule f.ws f.s2)
  | error pre mid rest hp hd hv hn s' =>
    rcases hd with rfl | hd
    · cases rest with
      | nil => exact ⟨_, h1, rfl⟩
      | cons t rest =>
        obtain ⟨more, hmore⟩ := hmore
        rw [hp, List.nil_append, List.append_assoc] at hmore
        exact absurd hmore (hn _ rfl)
    · exact absurd hd (not_long hp hlen)

/-- `y = 1` without the semicolon, and the empty file, meet the conditions of `C93_violated_end_of_file`. -/
example : (∀ r vs s, (logAct r vs s).1 ≠ none) ∧
    ∀ t ∈ [plain [.identifier, .equal, .integer], []], t.length < 100 ∧ ¬ Grammatical t ∧ ∃ more, Grammatical (t ++ more) := by
  refine ⟨(by intro r vs s h; cases h), ?_⟩
  have key : ∀ (t : List (Kind × Unit)) (l : List ℕ), t.length < 100 → Returns logAct stackDepth () t [] (.syntaxError 0 l) →
      ¬ Grammatical t := by
    rintro t l hl h ⟨F, hF⟩
    have hh := height_le F 1 hF.valid
    rw [hF.leaves] at hh
    have h1 := deck_run logAct stackDepth () F t hF (by unfold stackDepth; omega) []
    have h2 := returns_unique h h1
    revert h2
    rcases F.eval logAct [] with ⟨_ | vs, s'⟩ <;> (intro h2; cases h2)
  intro t ht
  simp only [List.mem_cons, List.not_mem_nil, or_false] at ht
  rcases ht with rfl | rfl
  · exact ⟨by decide, key _ [42, 37, 30, 28, 25, 19, 16] (by decide) (returns_of_check 20 (by decide +kernel)),
      plain [.semicolon], shortForest, shortForest_ok.1⟩
  · exact ⟨by decide, key _ [] (by decide) (returns_of_check (t := []) 1 (by decide +kernel)),
      plain [.identifier, .equal, .integer, .semicolon], shortForest, shortForest_ok.1⟩

end Schnek.Props
