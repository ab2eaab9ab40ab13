import Verif.Lemma.Lexer
import Mathlib.Tactic.IntervalCases

/-! The tables of the generated scanner against the patterns: for every state what is left of the patterns, and for every state
and every character a check that the transition does what the longest-match rule asks for. -/

namespace Schnek.Lemma.Scanner

open Schnek.Scanner Schnek.Spec.Lexer Schnek.Lemma.Lexer

/-- What the actions of a transition amount to. -/
inductive Eff
  /-- Go on in state `cs`; count a line; remember this place as the end of a match, of this pattern. -/
  | go (cs : ℕ) (nl mark : Bool) (act : Option ℕ)
  /-- The token ends with this character. -/
  | shut (nl : Bool) (u : Use)
  /-- The token ended before this character. -/
  | back (u : Use)
  /-- The token ended at `te`, it is a `/`. -/
  | rewind
  /-- The token ended at `te`, its pattern is in `act`. -/
  | last
  /-- No token begins here. -/
  | bad
  deriving DecidableEq

def effs : List Eff :=
  let g (cs : ℕ) : Eff := .go cs false false none
  let l (cs : ℕ) : Eff := .go cs true false none
  let k (cs act : ℕ) : Eff := .go cs false true (some act)
  let s (x : Kind) : Eff := .shut false (.token x)
  let q : Eff := .shut false (.quoted .string)
  [g 1, l 1, q, g 2, g 3, l 3, q, g 4, .last, g 6,
   g 12, .rewind, g 7, .shut true .skip, g 8, l 8, g 9, g 10, .shut false .skip, .shut true .skip,
   .bad, s .lbracket, s .rbracket, s .times, s .plus, s .comma, s .minus, k 11 27, .go 13 false true none, k 14 26,
   s .semicolon, s .equal, k 15 19, k 17 19, s .exponent, g 19, g 24, g 28, g 34, g 37,
   s .lbrace, s .rbrace, .back (.tokenText .float), g 5, .back (.token .divide), .shut false .comment,
   .back (.tokenText .integer), g 16, .back (.tokenText .identifier), .back (.tokenText .identifier),
   g 18, g 20, g 21, g 22, g 23, k 15 16, g 25, g 26, g 27, k 15 15,
   g 29, g 30, .back (.token .intDecl), g 31, g 32, g 33, k 15 14, g 35, g 36, k 15 17,
   g 38, g 39, g 40, g 41, k 15 18]

def eff (t : ℕ) : Eff := effs.getD t .bad

/-- Insert the token for a match with the given use. -/
def emitUse (txt : List Byte) (m : Regs) : Use → Option Regs
  | .token k => some (m.emit k)
  | .tokenText k => m.emitToken txt k
  | .quoted _ => m.emitString txt
  | .skip => some m
  | .comment => some { m with cs := 8 }

def applyEff (txt : List Byte) (m : Regs) : Eff → Option Regs
  | .go cs nl mark act => some { m with
      cs := cs, line := m.line + nl.toNat, te := if mark then m.p + 1 else m.te, act := act.getD m.act }
  | .shut nl u => emitUse txt { m with cs := 10, line := m.line + nl.toNat, te := m.p + 1 } u
  | .back u => emitUse txt { m with cs := 10, te := m.p, p := m.p - 1 } u
  | .rewind => some (({ m with cs := 10, p := m.te - 1 } : Regs).emit .divide)
  | .last => lastMatch txt { m with cs := 10 }
  | .bad => some { m with cs := 0 }

theorem emitToken_path (txt : List Byte) (m : Regs) : m.emitToken txt .pathIdentifier = m.emitToken txt .identifier := by
  unfold Regs.emitToken Regs.emitText Tok.make
  simp

theorem runActions_single (txt : List Byte) (a : ℕ) (m : Regs) : runActions txt [a] m = (action txt a m).map Prod.fst := by
  unfold runActions
  cases h : action txt a m with
  | none => rfl
  | some x =>
    obtain ⟨m', f⟩ := x
    cases f <;> rfl

theorem runActions_cons (txt : List Byte) (a : ℕ) (as : List ℕ) (m m' : Regs) (h : action txt a m = some (m', false)) :
    runActions txt (a :: as) m = runActions txt as m' := by
  rw [runActions, h]

theorem map_fst (o : Option Regs) (b : Bool) : (o.map (fun m => (m, b))).map Prod.fst = o := by
  cases o <;> rfl

theorem step_single (txt : List Byte) (eof : Bool) (t a : ℕ) (m : Regs) (ha : at' transActions t ≠ 0)
    (hl : actionList (at' transActions t) = [a]) :
    step txt eof (.trans t m) = match (action txt a { m with cs := at' transTargs t }).map Prod.fst with
      | none => .undef
      | some m' => .again m' := by
  simp only [step]
  rw [if_neg ha, hl, runActions_single]
  rfl

theorem step_trans (txt : List Byte) (eof : Bool) (t : ℕ) (ht : t < 75) (m : Regs) :
    step txt eof (.trans t m) = match applyEff txt m (eff t) with
      | none => .undef
      | some m' => .again m' := by
  interval_cases t
  case «48» =>
    rw [step_single txt eof _ 32 m (by decide) (by decide)]
    show (match ((Regs.emitToken { m with cs := 10, te := m.p, p := m.p - 1 } txt .pathIdentifier).map (fun m => (m, false))).map Prod.fst with | none => Pc.undef | some m' => .again m') = _
    rw [map_fst, emitToken_path]
    rfl
  all_goals first
    | rfl
    | (rw [step_single txt eof _ 25 m (by decide) (by decide)]
       show (match ((Regs.emitString { m with cs := 10, te := m.p + 1 } txt).map (fun m => (m, false))).map Prod.fst with | none => Pc.undef | some m' => .again m') = _
       rw [map_fst]
       rfl)
    | (rw [step_single txt eof _ 24 m (by decide) (by decide)]
       show (match ((Regs.emitString { m with cs := 10, te := m.p + 1 } txt).map (fun m => (m, false))).map Prod.fst with | none => Pc.undef | some m' => .again m') = _
       rw [map_fst]
       rfl)
    | (rw [step_single txt eof _ 36 m (by decide) (by decide)]
       show (match ((lastMatch txt { m with cs := 10 }).map (fun m => (m, false))).map Prod.fst with | none => Pc.undef | some m' => .again m') = _
       rw [map_fst]
       rfl)
    | (rw [step_single txt eof _ 31 m (by decide) (by decide)]
       show (match ((Regs.emitToken { m with cs := 10, te := m.p, p := m.p - 1 } txt .identifier).map (fun m => (m, false))).map Prod.fst with | none => Pc.undef | some m' => .again m') = _
       rw [map_fst]
       rfl)
    | (rw [step_single txt eof _ 33 m (by decide) (by decide)]
       show (match ((Regs.emitToken { m with cs := 10, te := m.p, p := m.p - 1 } txt .integer).map (fun m => (m, false))).map Prod.fst with | none => Pc.undef | some m' => .again m') = _
       rw [map_fst]
       rfl)
    | (rw [step_single txt eof _ 34 m (by decide) (by decide)]
       show (match ((Regs.emitToken { m with cs := 10, te := m.p, p := m.p - 1 } txt .float).map (fun m => (m, false))).map Prod.fst with | none => Pc.undef | some m' => .again m') = _
       rw [map_fst]
       rfl)

/-- The states inside a token, and the main state, each with the shortest way to get there. -/
def words : List (ℕ × String) :=
  [(10, ""), (1, "\""), (2, "\"\\"), (3, "'"), (4, "'\\"), (5, "1e"), (6, "1e+"), (7, "//"), (11, "."), (12, "1e1"), (13, "/"),
   (14, "1"), (15, "x"), (16, "a:"), (17, "e"), (18, "e1"), (19, "d"), (20, "do"), (21, "dou"), (22, "doub"), (23, "doubl"),
   (24, "f"), (25, "fl"), (26, "flo"), (27, "floa"), (28, "i"), (29, "in"), (30, "int"), (31, "inte"), (32, "integ"),
   (33, "intege"), (34, "r"), (35, "re"), (36, "rea"), (37, "s"), (38, "st"), (39, "str"), (40, "stri"), (41, "strin")]

def states : List ℕ := [10, 1, 2, 3, 4, 5, 6, 7, 11, 12, 13, 14, 15, 16, 17, 18, 19, 20, 21, 22, 23, 24, 25, 26, 27, 28, 29, 30, 31, 32,
  33, 34, 35, 36, 37, 38, 39, 40, 41]

/-- What is left of the patterns in a state. -/
def resid (cs : ℕ) : Vec :=
  match words.find? fun x => x.1 == cs with
  | some x => (bytes x.2).foldl (fun v b => strip (dv b v)) allPatterns
  | none => []

/-- A state in which the characters so far are a match of this pattern. -/
def known : ℕ → Option ℕ
  | 11 => some 26
  | 12 => some 26
  | 13 => some 10
  | 14 => some 25
  | 16 => some 19
  | 30 => some 12
  | cs => if 17 ≤ cs then some 18 else none

/-- A state in which `te` is the end of the longest match. -/
def stored (cs : ℕ) : Bool := cs == 5 || cs == 6 || cs == 7 || cs == 11 || cs == 13 || cs == 14 || cs == 15 || cs == 17

/-- A state in which the match that ends at `te` is a `/`. -/
def slash (cs : ℕ) : Bool := cs == 7 || cs == 13

/-- A state without a match. -/
def unmatched (cs : ℕ) : Bool := cs == 10 || cs == 1 || cs == 2 || cs == 3 || cs == 4

/-- The values of `act` that `lastMatch` knows. -/
def acts : List ℕ := [14, 15, 16, 17, 18, 19, 26, 27]

def okTrans (cs : ℕ) (b : Byte) : Bool :=
  let v := dv b (resid cs)
  let t := findTrans cs (code b)
  Nat.blt t 75 &&
  match eff t with
  | .go cs' nl mark act =>
    states.contains cs' && cs' != 10 && decide (strip v = resid cs') && (nl == (b.val == 10)) &&
    match firstNull v with
    | some i =>
      ((known cs').isSome || stored cs') &&
      (known cs' == none || known cs' == some i) &&
      (!(stored cs') || (mark && (if slash cs' then i == 10 else act == some (i + 1) && acts.contains (i + 1)))) &&
      (stored cs' || act == none)
    | none =>
      known cs' == none && !mark && act == none && b.val != 10 &&
      (if stored cs' then stored cs && (slash cs' == slash cs) else unmatched cs && unmatched cs')
      || known cs' == none && !mark && act == none && unmatched cs && unmatched cs'
  | .shut nl u => decide (strip v = []) && (nl == (b.val == 10)) &&
    match firstNull v with
    | some i => decide (useOf i = u)
    | none => false
  | .back u => decide (v = []) &&
    match known cs with
    | some i => decide (useOf i = u)
    | none => false
  | .rewind => decide (v = []) && stored cs && slash cs
  | .last => decide (v = []) && stored cs && !slash cs
  | .bad => decide (v = []) && cs == 10

set_option maxRecDepth 100000 in
theorem okTrans_all : (states.all fun cs => (List.finRange 256).all fun b => okTrans cs b) = true := by decide +kernel


def okEof (cs : ℕ) : Bool :=
  if at' eofTrans cs = 0 then unmatched cs
  else
    let t := at' eofTrans cs - 1
    Nat.blt t 75 &&
    match eff t with
    | .back u =>
      match known cs with
      | some i => decide (useOf i = u)
      | none => false
    | .rewind => stored cs && slash cs
    | .last => stored cs && !slash cs
    | _ => false

theorem okEof_all : (states.all fun cs => okEof cs) = true := by decide +kernel

/-- A way to go on in each state. -/
def moreWord (cs : ℕ) : List Byte :=
  match cs with
  | 1 => bytes "\""
  | 2 => bytes "a\""
  | 3 => bytes "'"
  | 4 => bytes "a'"
  | 7 => bytes "\n"
  | 13 => bytes "*"
  | 10 => bytes "a"
  | 11 => bytes "1"
  | 12 => bytes "1"
  | 14 => bytes "1"
  | 5 => bytes "1"
  | 6 => bytes "1"
  | _ => bytes "a"

theorem moreWord_all : (states.all fun cs =>
    !(moreWord cs).isEmpty && (resid cs).any fun x => nullable ((moreWord cs).foldl (fun r b => deriv b r) x.2)) = true := by
  decide +kernel

/-- The states of a comment. -/
def okComment (cs : ℕ) (b : Byte) : Bool :=
  let t := findTrans cs (code b)
  Nat.blt t 75 &&
  (if cs == 9 && b.val == 47 then decide (eff t = .go 10 false false none)
   else if b.val == 42 then decide (eff t = .go 9 false false none)
   else decide (eff t = .go 8 (b.val == 10) false none))

theorem okComment_all : ([8, 9].all fun cs => (List.finRange 256).all fun b => okComment cs b) = true := by decide +kernel

theorem okTrans_of {cs : ℕ} (h : cs ∈ states) (b : Byte) : okTrans cs b = true := by
  have h1 := List.all_eq_true.1 okTrans_all cs h
  exact List.all_eq_true.1 h1 b (List.mem_finRange b)

theorem okEof_of {cs : ℕ} (h : cs ∈ states) : okEof cs = true := List.all_eq_true.1 okEof_all cs h

theorem okComment_of {cs : ℕ} (h : cs = 8 ∨ cs = 9) (b : Byte) : okComment cs b = true := by
  have h1 := List.all_eq_true.1 okComment_all cs (by simpa using h)
  exact List.all_eq_true.1 h1 b (List.mem_finRange b)

end Schnek.Lemma.Scanner
