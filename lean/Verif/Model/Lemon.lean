import Verif.Model.Scanner

/-!
# Model of the parser generated by lemon

`src/parser/deckgrammar.inc`, its use in `src/parser/parser.cpp`

The tables are copied, the functions that use them are modelled one by one. The actions of the rules are a parameter: an action gets the
number of its rule, the values of the symbols of the right hand side, and a state, the rest of the program. It throws an exception or
gives a value for the left hand side, and changes the state.
-/

namespace Schnek.Lemon

open Scanner (Kind)

/-! ## tables -/

/-- The codes of the tokens: src/parser/deckgrammar.hpp 1-21. The end of the input is 0. -/
def _root_.Schnek.Scanner.Kind.code : Kind → ℕ
  | .plus => 1
  | .minus => 2
  | .divide => 3
  | .times => 4
  | .exponent => 5
  | .semicolon => 6
  | .includeKw => 7
  | .string => 8
  | .rbrace => 9
  | .identifier => 10
  | .lbrace => 11
  | .comma => 12
  | .equal => 13
  | .lbracket => 14
  | .rbracket => 15
  | .pathIdentifier => 16
  | .integer => 17
  | .float => 18
  | .intDecl => 19
  | .floatDecl => 20
  | .stringDecl => 21

/-- deckgrammar.inc 81 -/
def nState : ℕ := 74

/-- deckgrammar.inc 82 -/
def nRule : ℕ := 48

/-- deckgrammar.inc 85 -/
def noAction : ℕ := nState + nRule + 2

/-- deckgrammar.inc 86 -/
def acceptAction : ℕ := nState + nRule + 1

/-- deckgrammar.inc 87 -/
def errorAction : ℕ := nState + nRule

/-- `yy_action`: deckgrammar.inc 153-171 -/
def yyAction : List ℕ := [
   13, 12, 69, 23, 21, 31, 3, 58, 54, 32, 15, 17, 18, 4, 62, 55, 56, 57, 58, 44,
   32, 1, 13, 12, 4, 16, 55, 56, 57, 58, 30, 32, 73, 66, 50, 4, 54, 55, 56, 57,
   6, 7, 28, 63, 24, 74, 59, 21, 31, 33, 22, 54, 27, 37, 35, 19, 68, 23, 21, 31,
   65, 124, 54, 54, 39, 40, 41, 64, 36, 123, 5, 42, 14, 124, 26, 34, 27, 36, 35, 19,
   43, 14, 2, 26, 34, 60, 9, 8, 39, 40, 41, 124, 47, 23, 21, 31, 61, 24, 54, 59,
   21, 31, 46, 24, 54, 59, 21, 31, 25, 24, 54, 59, 21, 31, 124, 58, 54, 32, 124, 29,
   38, 4, 3, 55, 56, 57, 48, 23, 21, 31, 10, 11, 54, 53, 21, 31, 124, 124, 54, 67,
   21, 31, 124, 71, 54, 49, 21, 31, 71, 70, 54, 45, 51, 20, 70, 54, 72, 124, 52, 21,
   31, 124, 124, 54]

/-- `yy_lookahead`: deckgrammar.inc 172-190 -/
def yyLookahead : List ℕ := [
   1, 2, 33, 34, 35, 36, 13, 8, 39, 10, 5, 1, 2, 14, 15, 16, 17, 18, 8, 6,
   10, 14, 1, 2, 14, 12, 16, 17, 18, 8, 10, 10, 6, 36, 37, 14, 39, 16, 17, 18,
   1, 2, 8, 31, 32, 0, 34, 35, 36, 6, 38, 39, 7, 11, 9, 10, 33, 34, 35, 36,
   36, 40, 39, 39, 19, 20, 21, 15, 22, 23, 24, 25, 26, 40, 28, 29, 7, 22, 9, 10,
   25, 26, 12, 28, 29, 15, 1, 2, 19, 20, 21, 40, 33, 34, 35, 36, 31, 32, 39, 34,
   35, 36, 31, 32, 39, 34, 35, 36, 31, 32, 39, 34, 35, 36, 40, 8, 39, 10, 40, 10,
   11, 14, 13, 16, 17, 18, 33, 34, 35, 36, 3, 4, 39, 34, 35, 36, 40, 40, 39, 34,
   35, 36, 40, 22, 39, 34, 35, 36, 22, 28, 39, 30, 36, 27, 28, 39, 30, 40, 34, 35,
   36, 40, 40, 39]

/-- `yy_shift_ofst`: deckgrammar.inc 193-198. `YY_SHIFT_MAX` is the last position. -/
def yyShiftOfst : List ℤ := [
   69, -1, 21, 21, 21, 45, 107, 107, 107, 107, 107, 107, 107, 107, 20, 10, 20, 107, 107, 109,
   13, 127, 70, 39, 85, 52, 26, 34, 43, 42, -7, 5, 7]

/-- `yy_reduce_ofst`: deckgrammar.inc 201-204. `YY_REDUCE_MAX` is the last position. -/
def yyReduceOfst : List ℤ := [
   46, 12, 65, 71, 77, 55, 93, 23, -31, 59, 105, 111, 99, 124, 126, -3, 121, 116, 24]

/-- `yy_default`: deckgrammar.inc 205-214 -/
def yyDefault : List ℕ := [
   122, 122, 122, 122, 122, 122, 122, 122, 122, 122, 122, 122, 122, 122, 122, 122, 122, 122, 122, 122,
   122, 102, 122, 96, 93, 122, 122, 122, 122, 122, 87, 104, 115, 79, 80, 81, 82, 83, 84, 119,
   120, 121, 76, 75, 77, 85, 90, 91, 94, 100, 103, 105, 97, 98, 111, 114, 116, 117, 118, 99,
   109, 112, 110, 113, 108, 106, 107, 101, 95, 92, 88, 89, 86, 78]

/-- `yyRuleInfo`: deckgrammar.inc 670-722. The left hand side and the number of symbols on the right hand side. -/
def yyRuleInfo : List (ℕ × ℕ) := [
   (23, 1), (24, 2), (24, 1), (25, 3), (25, 2), (25, 3), (25, 1), (25, 1), (25, 1), (29, 3), (29, 2), (27, 3),
   (27, 1), (30, 1), (30, 1), (30, 1), (28, 3), (31, 3), (31, 3), (31, 1), (33, 3), (33, 3), (33, 1), (32, 2),
   (32, 2), (32, 1), (34, 3), (34, 3), (34, 1), (35, 3), (35, 1), (37, 2), (37, 2), (37, 1), (36, 3), (36, 4),
   (36, 3), (36, 1), (38, 3), (38, 1), (39, 1), (39, 1), (39, 1), (39, 1), (39, 1), (26, 1), (26, 1), (26, 1)]

/-! ## functions -/

/-- An entry of one of the tables at a position that may be out of range: deckgrammar.inc 533, 598-602 -/
def entry (i : ℤ) (look : ℕ) : Option ℕ :=
  if i < 0 ∨ (yyAction.length : ℤ) ≤ i then none
  else if yyLookahead.getD i.toNat 0 ≠ look then none
  else yyAction[i.toNat]?

/-- `yy_find_shift_action`: deckgrammar.inc 521-567. There is neither a fallback nor a wildcard. -/
def findShift (state look : ℕ) : ℕ :=
  let dflt := yyDefault.getD state noAction
  match yyShiftOfst[state]? with
  | none => dflt
  | some i => if i = -8 then dflt else (entry (i + look) look).getD dflt

/-- `yy_find_reduce_action`: deckgrammar.inc 577-602 -/
def findReduce (state look : ℕ) : ℕ :=
  let dflt := yyDefault.getD state noAction
  match yyReduceOfst[state]? with
  | none => dflt
  | some i => (entry (i + look) look).getD dflt

/-- `yyStackEntry`: deckgrammar.inc 229-245 -/
structure Entry (V : Type) where
  state : ℕ
  major : ℕ
  minor : V

/-- What the actions of the rules do: the `switch` in deckgrammar.inc 767-993. `none` is an exception. -/
abbrev Actions (V S : Type) := ℕ → List V → S → Option V × S

/-- The parser between two passes of the loop in `Parse`, and the tokens that have not been read, with the end of the input (the call
with 0 in parser.cpp 93) as the last one. `yystack[0]`, …, `yystack[yyidx]` are the stack, the top is the head of the list; the list is
empty if `yyidx` is negative. -/
structure Conf (V S : Type) where
  stack : List (Entry V)
  input : List (ℕ × V)
  state : S

/-- What comes of the calls of `Parse` in parser.cpp 83-93. -/
inductive Outcome (V S : Type)
  | running (c : Conf V S)
  /-- all calls have returned -/
  | done (s : S)
  /-- `ParserInternalError`, with this many tokens (not counting the end of the input) not shifted. At a token it is made a
  `ParserError` with the position of the token, at the end of the input it is not: parser.cpp 83-93. -/
  | syntaxError (left : ℕ) (s : S)
  /-- an exception from an action -/
  | thrown (s : S)
  /-- a failed assertion or an access outside of the stack -/
  | undef

section

variable {V S : Type}

/-- `yy_shift` for a stack of `D` entries, and `yyStackOverflow`, which empties the stack: deckgrammar.inc 607-663 -/
def shift (D : ℕ) (stack : List (Entry V)) (e : Entry V) : List (Entry V) :=
  if D ≤ stack.length then [] else e :: stack

/-- `yy_reduce`: deckgrammar.inc 730-1015, as compiled without `NDEBUG`. `yy_accept` (1058-1072) empties the stack. The loop in `Parse`
ends when the stack is empty, then the token is gone. -/
def reduce (act : Actions V S) (D : ℕ) (stack : List (Entry V)) (input : List (ℕ × V)) (s : S) (rule : ℕ) : Outcome V S :=
  match yyRuleInfo[rule]? with
  | none => .undef
  | some (lhs, size) =>
    match stack.drop size with
    | [] => .undef
    | top :: below =>
      match act rule ((stack.take size).reverse.map Entry.minor) s with
      | (none, s') => .thrown s'
      | (some v, s') =>
        let a := findReduce top.state lhs
        if a < nState then
          match shift D (top :: below) ⟨a, lhs, v⟩ with
          | [] => .running ⟨[], input.tail, s'⟩
          | e :: l => .running ⟨e :: l, input, s'⟩
        else if a = acceptAction then .running ⟨[], input.tail, s'⟩
        else .undef

/-- One pass of the loop in `Parse`, with the (re)initialisation if the stack is empty: deckgrammar.inc 1092-1241. As `yyerrcnt` is
negative at first, never increased before an error, and an error is an exception, the code after `yy_syntax_error` is never executed.
`v0` is the value in `yystack[0]`, which is not used. -/
def tick (act : Actions V S) (D : ℕ) (v0 : V) (c : Conf V S) : Outcome V S :=
  match c.input with
  | [] => .done c.state
  | (look, v) :: rest =>
    let top : Entry V := c.stack.headD ⟨0, 0, v0⟩
    let below := c.stack.tail
    let a := findShift top.state look
    if a < nState then
      if look = 0 then .undef else .running ⟨shift D (top :: below) ⟨a, look, v⟩, rest, c.state⟩
    else if a < nState + nRule then reduce act D (top :: below) c.input c.state (a - nState)
    else if a = errorAction then .syntaxError rest.length c.state
    else .undef

/-- `n` passes -/
def run (act : Actions V S) (D : ℕ) (v0 : V) : ℕ → Conf V S → Outcome V S
  | 0, c => .running c
  | n + 1, c =>
    match tick act D v0 c with
    | .running c' => run act D v0 n c'
    | o => o

/-- parser.cpp 61-93: the parser from `ParseAlloc` (deckgrammar.inc 411-426: `yyidx` is -1), the tokens of the file and the end of the
input -/
def start (v0 : V) (tokens : List (Kind × V)) (s : S) : Conf V S :=
  ⟨[], tokens.map (fun t => (t.1.code, t.2)) ++ [(0, v0)], s⟩

/-- The calls of `Parse` come to an end, with this outcome. -/
def Returns (act : Actions V S) (D : ℕ) (v0 : V) (tokens : List (Kind × V)) (s : S) (o : Outcome V S) : Prop :=
  (∀ c, o ≠ .running c) ∧ ∃ n, run act D v0 n (start v0 tokens s) = o

end

/-- What a program sees of `Parser::parse`: parser.cpp 83-93. -/
inductive Report (S : Type)
  /-- all tokens have been parsed -/
  | ok (s : S)
  /-- `ParserError` with the position of this token: parser.cpp 88-90 -/
  | parserError (token : ℕ)
  /-- `ParserInternalError`, a type that is not known outside of parser.cpp (37-40), without any position: parser.cpp 93 -/
  | internalError
  /-- an exception from an action -/
  | thrown
  | undef

/-- parser.cpp 83-93 -/
def report {V S : Type} (tokens : List (Kind × V)) : Outcome V S → Report S
  | .running _ => .undef
  | .done s => .ok s
  | .syntaxError 0 _ => .internalError
  | .syntaxError (n + 1) _ => .parserError (tokens.length - (n + 1))
  | .thrown _ => .thrown
  | .undef => .undef

/-- `YYSTACKDEPTH`: deckgrammar.inc 75 -/
def stackDepth : ℕ := 100

end Schnek.Lemon

