import Mathlib.Data.List.Basic
import Mathlib.Data.Int.Basic

/-!
# The scanner of the deck parser

`DeckScanner::do_scan` is generated by Ragel from parser/deckscanner.rl; the code that is compiled is
src/parser/internal/deckscanner.cpp (included from src/parser/deckscanner.cpp).  It consists of twelve tables and a driver
that reads the input stream into a buffer of `BUFSIZE` characters and runs the table-driven machine on the contents of the
buffer.  Tables and driver are modelled here as they are, goto by goto.

Simplifications:
* pointers into `buf` are indices (integers) relative to `buf`; the null pointer in `ts` is `none`;
* `te` is an integer even when it is stale: `te = buf + (te-ts)` is executed by the code with a `te` that is null or lies
  before `ts`, which the C++ standard leaves undefined but all implementations compute as an integer;
* `int` is unbounded (`cur_line`);
* `char` is signed, as on x86; `input->read` delivers the characters of the stream in order and stores fewer than it was asked
  for only at the end of the stream.
-/

namespace Schnek.Scanner

/-- A character of the input, as the byte stored in the file. -/
abbrev Byte := Fin 256

/-- The value of a `char` on a machine where `char` is signed. -/
def code (b : Byte) : ℤ := if b.val < 128 then b.val else (b.val : ℤ) - 256

/-- src/parser/deckgrammar.hpp 1-21: the token codes. -/
inductive Kind
  | plus | minus | divide | times | exponent | semicolon | includeKw | string | rbrace | identifier | lbrace | comma | equal
  | lbracket | rbracket | pathIdentifier | integer | float | intDecl | floatDecl | stringDecl
  deriving DecidableEq, Repr

/-- src/parser/tokenlist.hpp 43-54: a token; the file name is the same for all tokens of one scan. -/
structure Tok where
  line : ℕ
  kind : Kind
  text : List Byte
  deriving DecidableEq, Repr

/-- src/parser/tokenlist.hpp 50-54: the constructor turns a path identifier into an identifier. -/
def Tok.make (line : ℕ) (kind : Kind) (text : List Byte) : Tok :=
  ⟨line, if kind = .pathIdentifier then .identifier else kind, text⟩

/-- src/parser/internal/deckscanner.cpp 24-36: `_deck_actions`. -/
def actions : List ℕ :=
  [0, 1, 0, 1, 1, 1, 2, 1, 3, 1, 4, 1, 13, 1, 14, 1, 15, 1, 16, 1, 17, 1, 18, 1,
   19, 1, 20, 1, 21, 1, 22, 1, 23, 1, 24, 1, 25, 1, 26, 1, 28, 1, 29, 1, 30, 1, 31, 1,
   32, 1, 33, 1, 34, 1, 35, 1, 36, 2, 0, 26, 2, 0, 27, 2, 4, 5, 2, 4, 6, 2, 4, 7,
   2, 4, 8, 2, 4, 9, 2, 4, 10, 2, 4, 11, 2, 4, 12]

/-- src/parser/internal/deckscanner.cpp 38-45: `_deck_key_offsets`. -/
def keyOffsets : List ℕ :=
  [0, 0, 3, 4, 7, 8, 12, 14, 15, 17, 20, 58, 62, 64, 66, 71, 79, 86, 96, 104, 113, 122, 131, 140,
   149, 158, 167, 176, 185, 194, 203, 212, 221, 230, 239, 248, 257, 266, 275, 284, 293, 302, 311]

/-- src/parser/internal/deckscanner.cpp 47-87: `_deck_trans_keys`. -/
def transKeys : List ℕ :=
  [10, 34, 92, 10, 10, 39, 92, 10, 43, 45, 48, 57, 48, 57, 10, 10, 42, 10, 42, 47, 10, 34, 39, 40,
   41, 42, 43, 44, 45, 46, 47, 59, 61, 69, 94, 95, 100, 101, 102, 105, 114, 115, 123, 125, 33, 38, 48, 57,
   58, 64, 65, 90, 91, 96, 97, 122, 124, 126, 69, 101, 48, 57, 48, 57, 42, 47, 46, 69, 101, 48, 57, 58,
   95, 48, 57, 65, 90, 97, 122, 95, 48, 58, 65, 90, 97, 122, 43, 45, 58, 95, 48, 57, 65, 90, 97, 122,
   58, 95, 48, 57, 65, 90, 97, 122, 58, 95, 111, 48, 57, 65, 90, 97, 122, 58, 95, 117, 48, 57, 65, 90,
   97, 122, 58, 95, 98, 48, 57, 65, 90, 97, 122, 58, 95, 108, 48, 57, 65, 90, 97, 122, 58, 95, 101, 48,
   57, 65, 90, 97, 122, 58, 95, 108, 48, 57, 65, 90, 97, 122, 58, 95, 111, 48, 57, 65, 90, 97, 122, 58,
   95, 97, 48, 57, 65, 90, 98, 122, 58, 95, 116, 48, 57, 65, 90, 97, 122, 58, 95, 110, 48, 57, 65, 90,
   97, 122, 58, 95, 116, 48, 57, 65, 90, 97, 122, 58, 95, 101, 48, 57, 65, 90, 97, 122, 58, 95, 103, 48,
   57, 65, 90, 97, 122, 58, 95, 101, 48, 57, 65, 90, 97, 122, 58, 95, 114, 48, 57, 65, 90, 97, 122, 58,
   95, 101, 48, 57, 65, 90, 97, 122, 58, 95, 97, 48, 57, 65, 90, 98, 122, 58, 95, 108, 48, 57, 65, 90,
   97, 122, 58, 95, 116, 48, 57, 65, 90, 97, 122, 58, 95, 114, 48, 57, 65, 90, 97, 122, 58, 95, 105, 48,
   57, 65, 90, 97, 122, 58, 95, 110, 48, 57, 65, 90, 97, 122, 58, 95, 103, 48, 57, 65, 90, 97, 122, 0]

/-- src/parser/internal/deckscanner.cpp 89-96: `_deck_single_lengths`. -/
def singleLengths : List ℕ :=
  [0, 3, 1, 3, 1, 2, 0, 1, 2, 3, 24, 2, 0, 2, 3, 2, 1, 4, 2, 3, 3, 3, 3, 3,
   3, 3, 3, 3, 3, 3, 3, 3, 3, 3, 3, 3, 3, 3, 3, 3, 3, 3, 0]

/-- src/parser/internal/deckscanner.cpp 98-105: `_deck_range_lengths`. -/
def rangeLengths : List ℕ :=
  [0, 0, 0, 0, 0, 1, 1, 0, 0, 0, 7, 1, 1, 0, 1, 3, 3, 3, 3, 3, 3, 3, 3, 3,
   3, 3, 3, 3, 3, 3, 3, 3, 3, 3, 3, 3, 3, 3, 3, 3, 3, 3, 0]

/-- src/parser/internal/deckscanner.cpp 107-114: `_deck_index_offsets`. -/
def indexOffsets : List ℕ :=
  [0, 0, 4, 6, 10, 12, 16, 18, 20, 23, 27, 59, 63, 65, 68, 73, 79, 84, 92, 98, 105, 112, 119, 126,
   133, 140, 147, 154, 161, 168, 175, 182, 189, 196, 203, 210, 217, 224, 231, 238, 245, 252, 259]

/-- src/parser/internal/deckscanner.cpp 116-150: `_deck_indicies`. -/
def indicies : List ℕ :=
  [1, 2, 3, 0, 1, 0, 5, 6, 7, 4, 5, 4, 9, 9, 10, 8, 10, 8, 13, 12, 15, 16, 14, 15,
   16, 17, 14, 19, 0, 4, 21, 22, 23, 24, 25, 26, 27, 28, 30, 31, 33, 34, 32, 35, 33, 36, 37, 38,
   39, 40, 41, 20, 29, 20, 32, 20, 32, 20, 18, 43, 43, 27, 42, 10, 42, 45, 12, 44, 27, 43, 43, 29,
   46, 47, 32, 32, 32, 32, 8, 47, 47, 47, 47, 48, 9, 9, 47, 32, 50, 32, 32, 49, 47, 32, 50, 32,
   32, 49, 47, 32, 51, 32, 32, 32, 49, 47, 32, 52, 32, 32, 32, 49, 47, 32, 53, 32, 32, 32, 49, 47,
   32, 54, 32, 32, 32, 49, 47, 32, 55, 32, 32, 32, 49, 47, 32, 56, 32, 32, 32, 49, 47, 32, 57, 32,
   32, 32, 49, 47, 32, 58, 32, 32, 32, 49, 47, 32, 59, 32, 32, 32, 49, 47, 32, 60, 32, 32, 32, 49,
   47, 32, 61, 32, 32, 32, 49, 47, 32, 63, 32, 32, 32, 62, 47, 32, 64, 32, 32, 32, 49, 47, 32, 65,
   32, 32, 32, 49, 47, 32, 66, 32, 32, 32, 49, 47, 32, 67, 32, 32, 32, 49, 47, 32, 68, 32, 32, 32,
   49, 47, 32, 69, 32, 32, 32, 49, 47, 32, 70, 32, 32, 32, 49, 47, 32, 71, 32, 32, 32, 49, 47, 32,
   72, 32, 32, 32, 49, 47, 32, 73, 32, 32, 32, 49, 47, 32, 74, 32, 32, 32, 49, 20, 0]

/-- src/parser/internal/deckscanner.cpp 152-163: `_deck_trans_targs`. -/
def transTargs : List ℕ :=
  [1, 1, 10, 2, 3, 3, 10, 4, 10, 6, 12, 10, 7, 10, 8, 8, 9, 42, 10, 10, 0, 10, 10, 10,
   10, 10, 10, 11, 13, 14, 10, 10, 15, 17, 10, 19, 24, 28, 34, 37, 10, 10, 10, 5, 10, 10, 10, 16,
   10, 10, 18, 20, 21, 22, 23, 15, 25, 26, 27, 15, 29, 30, 10, 31, 32, 33, 15, 35, 36, 15, 38, 39,
   40, 41, 15]

/-- src/parser/internal/deckscanner.cpp 165-176: `_deck_trans_actions`. -/
def transActions : List ℕ :=
  [0, 1, 35, 0, 0, 1, 33, 0, 55, 0, 0, 53, 0, 60, 0, 1, 0, 3, 37, 57, 0, 17, 19, 29,
   25, 23, 27, 84, 9, 81, 21, 11, 78, 78, 31, 0, 0, 0, 0, 0, 13, 15, 51, 0, 41, 39, 49, 0,
   47, 45, 0, 0, 0, 0, 0, 69, 0, 0, 0, 66, 0, 0, 43, 0, 0, 0, 63, 0, 0, 72, 0, 0,
   0, 0, 75]

/-- src/parser/internal/deckscanner.cpp 178-185: `_deck_to_state_actions`. -/
def toStateActions : List ℕ :=
  [0, 0, 0, 0, 0, 0, 0, 0, 5, 0, 5, 0, 0, 0, 0, 0, 0, 0, 0, 0, 0, 0, 0, 0,
   0, 0, 0, 0, 0, 0, 0, 0, 0, 0, 0, 0, 0, 0, 0, 0, 0, 0, 0]

/-- src/parser/internal/deckscanner.cpp 187-194: `_deck_from_state_actions`. -/
def fromStateActions : List ℕ :=
  [0, 0, 0, 0, 0, 0, 0, 0, 0, 0, 7, 0, 0, 0, 0, 0, 0, 0, 0, 0, 0, 0, 0, 0,
   0, 0, 0, 0, 0, 0, 0, 0, 0, 0, 0, 0, 0, 0, 0, 0, 0, 0, 0]

/-- src/parser/internal/deckscanner.cpp 196-203: `_deck_eof_trans`. -/
def eofTrans : List ℕ :=
  [0, 0, 0, 0, 0, 9, 9, 12, 0, 0, 0, 43, 43, 45, 47, 9, 49, 50, 50, 50, 50, 50, 50, 50,
   50, 50, 50, 50, 50, 50, 63, 50, 50, 50, 50, 50, 50, 50, 50, 50, 50, 50, 0]


/-- src/parser/internal/deckscanner.cpp 205: `deck_start`. -/
def deckStart : ℕ := 10

/-- src/parser/internal/deckscanner.cpp 206: `deck_error`. -/
def deckError : ℕ := 0

/-- src/parser/internal/deckscanner.cpp 214: `BUFSIZE`. -/
def bufSize : ℕ := 128

/-- `table[i]`; all accesses are within the tables. -/
def at' (l : List ℕ) (i : ℕ) : ℕ := l.getD i 0

/-- The key `_keys[i]`, a `const char *` into `_deck_trans_keys`. -/
def key (i : ℤ) : ℤ := at' transKeys i.toNat

/-- src/parser/internal/deckscanner.cpp 292-308: the binary search among single characters; pointers are indices into
`_deck_trans_keys`.  The first argument bounds the number of passes: every pass removes at least one key. -/
def searchSingle (c : ℤ) : ℕ → ℤ → ℤ → Option ℤ
  | 0, _, _ => none
  | n + 1, lower, upper =>
    if upper < lower then none
    else
      let mid := lower + (upper - lower) / 2
      if c < key mid then searchSingle c n lower (mid - 1)
      else if c > key mid then searchSingle c n (mid + 1) upper
      else some mid

/-- src/parser/internal/deckscanner.cpp 315-331: the binary search among the ranges; `_mid[0]` and `_mid[1]` are the ends of a
range, `& ~1` rounds down to an even number. -/
def searchRange (c : ℤ) : ℕ → ℤ → ℤ → Option ℤ
  | 0, _, _ => none
  | n + 1, lower, upper =>
    if upper < lower then none
    else
      let mid := lower + (upper - lower) / 2 / 2 * 2
      if c < key mid then searchRange c n lower (mid - 2)
      else if c > key (mid + 1) then searchRange c n (mid + 2) upper
      else some mid

/-- src/parser/internal/deckscanner.cpp 287-336: find the transition of state `cs` for the character `c`. -/
def findTrans (cs : ℕ) (c : ℤ) : ℕ :=
  let keys : ℤ := at' keyOffsets cs
  let trans := at' indexOffsets cs
  let klen := at' singleLengths cs
  match searchSingle c (klen + 1) keys (keys + klen - 1) with
  | some mid => at' indicies (trans + (mid - keys).toNat)
  | none =>
    let keys := keys + klen
    let trans := trans + klen
    let rlen := at' rangeLengths cs
    match searchRange c (rlen + 1) keys (keys + 2 * rlen - 2) with
    | some mid => at' indicies (trans + ((mid - keys) / 2).toNat)
    | none => at' indicies (trans + rlen)

/-- The list of actions stored at position `i` of `_deck_actions`: a count followed by the actions. -/
def actionList (i : ℕ) : List ℕ := (actions.drop (i + 1)).take (at' actions i)

/-- src/parser/internal/deckscanner.cpp 219-226, 240: the variables of `do_scan` that the machine works on, and the list of
tokens. -/
structure Regs where
  cs : ℕ
  act : ℕ
  line : ℕ
  ts : Option ℤ
  te : ℤ
  p : ℤ
  toks : List Tok
  deriving DecidableEq

/-- src/parser/tokenlist.hpp 141-144: insert a token without text. -/
def Regs.emit (m : Regs) (kind : Kind) : Regs := { m with toks := m.toks ++ [Tok.make m.line kind []] }

/-- src/parser/tokenlist.hpp 150-153: insert a token with the `len` characters at `str`.  Reading outside the valid part `txt`
of the buffer is undefined behaviour (`none`). -/
def Regs.emitText (m : Regs) (txt : List Byte) (kind : Kind) (str len : ℤ) : Option Regs :=
  if 0 ≤ str ∧ 0 ≤ len ∧ str + len ≤ txt.length then
    some { m with toks := m.toks ++ [Tok.make m.line kind ((txt.drop str.toNat).take len.toNat)] }
  else none

/-- The idiom `tlist.insert(cur_line, KIND, ts, te-ts)`. -/
def Regs.emitToken (m : Regs) (txt : List Byte) (kind : Kind) : Option Regs :=
  match m.ts with
  | some t => m.emitText txt kind t (m.te - t)
  | none => none

/-- The idiom `tlist.insert(cur_line, STRING, ts+1, te-ts-2)`. -/
def Regs.emitString (m : Regs) (txt : List Byte) : Option Regs :=
  match m.ts with
  | some t => m.emitText txt .string (t + 1) (m.te - t - 2)
  | none => none

/-- src/parser/internal/deckscanner.cpp 486-513: the action that goes back to the end of the last match. -/
def lastMatch (txt : List Byte) (m : Regs) : Option Regs :=
  let m' := { m with p := m.te - 1 }
  match m.act with
  | 14 => some (m'.emit .intDecl)
  | 15 => some (m'.emit .floatDecl)
  | 16 => some (m'.emit .floatDecl)
  | 17 => some (m'.emit .floatDecl)
  | 18 => some (m'.emit .stringDecl)
  | 19 => m'.emitToken txt .identifier
  | 26 => m'.emitToken txt .integer
  | 27 => m'.emitToken txt .float
  | _ => some m

/-- src/parser/internal/deckscanner.cpp 349-515: one action of a transition.  The flag is set by the actions that jump to
`_again` without looking at the remaining actions. -/
def action (txt : List Byte) (a : ℕ) (m : Regs) : Option (Regs × Bool) :=
  let after (m : Regs) : Regs := { m with te := m.p + 1 }
  let back (m : Regs) : Regs := { m with te := m.p, p := m.p - 1 }
  match a with
  | 0 => some ({ m with line := m.line + 1 }, false)
  | 1 => some ({ m with cs := 10 }, true)
  | 4 => some (after m, false)
  | 5 => some ({ m with act := 14 }, false)
  | 6 => some ({ m with act := 15 }, false)
  | 7 => some ({ m with act := 16 }, false)
  | 8 => some ({ m with act := 17 }, false)
  | 9 => some ({ m with act := 18 }, false)
  | 10 => some ({ m with act := 19 }, false)
  | 11 => some ({ m with act := 26 }, false)
  | 12 => some ({ m with act := 27 }, false)
  | 13 => some ((after m).emit .equal, false)
  | 14 => some ((after m).emit .lbrace, false)
  | 15 => some ((after m).emit .rbrace, false)
  | 16 => some ((after m).emit .lbracket, false)
  | 17 => some ((after m).emit .rbracket, false)
  | 18 => some ((after m).emit .semicolon, false)
  | 19 => some ((after m).emit .comma, false)
  | 20 => some ((after m).emit .plus, false)
  | 21 => some ((after m).emit .minus, false)
  | 22 => some ((after m).emit .times, false)
  | 23 => some ((after m).emit .exponent, false)
  | 24 => ((after m).emitString txt).map (·, false)
  | 25 => ((after m).emitString txt).map (·, false)
  | 26 => some (after m, false)
  | 27 => some (after m, false)
  | 28 => some ({ after m with cs := 8 }, true)
  | 29 => some ((back m).emit .divide, false)
  | 30 => some ((back m).emit .intDecl, false)
  | 31 => ((back m).emitToken txt .identifier).map (·, false)
  | 32 => ((back m).emitToken txt .pathIdentifier).map (·, false)
  | 33 => ((back m).emitToken txt .integer).map (·, false)
  | 34 => ((back m).emitToken txt .float).map (·, false)
  | 35 => some (({ m with p := m.te - 1 } : Regs).emit .divide, false)
  | 36 => (lastMatch txt m).map (·, false)
  | _ => some (m, false)

/-- src/parser/internal/deckscanner.cpp 343-517: the actions of a transition, one after the other. -/
def runActions (txt : List Byte) : List ℕ → Regs → Option Regs
  | [], m => some m
  | a :: as, m =>
    match action txt a m with
    | none => none
    | some (m', true) => some m'
    | some (m', false) => runActions txt as m'

/-- src/parser/internal/deckscanner.cpp 519-529: the actions on entering a state (2: `ts = 0`). -/
def toState (m : Regs) : Regs :=
  (actionList (at' toStateActions m.cs)).foldl (fun m a => if a = 2 then { m with ts := none } else m) m

/-- src/parser/internal/deckscanner.cpp 274-285: the actions on leaving a state (3: `ts = p`). -/
def fromState (m : Regs) : Regs :=
  (actionList (at' fromStateActions m.cs)).foldl (fun m a => if a = 3 then { m with ts := some m.p } else m) m

/-- The labels of the generated code.  `next` stands for the tests behind `++p` in line 533 and, the same tests in another
order, for the entry of the code in lines 270-273. -/
inductive Pc
  | resume (m : Regs)
  | trans (t : ℕ) (m : Regs)
  | again (m : Regs)
  | next (m : Regs)
  | out (m : Regs)
  | undef
  deriving DecidableEq

/-- src/parser/internal/deckscanner.cpp 263-546: from one label to the next, when the characters `buf … pe` are `txt`;
`eof` says that `eof == pe` (otherwise `eof` is null). -/
def step (txt : List Byte) (eof : Bool) : Pc → Pc
  | .resume m =>
    if m.p < 0 then .undef
    else
      match txt[m.p.toNat]? with
      | none => .undef
      | some c => .trans (findTrans (fromState m).cs (code c)) (fromState m)
  | .trans t m =>
    if at' transActions t = 0 then .again { m with cs := at' transTargs t }
    else
      match runActions txt (actionList (at' transActions t)) { m with cs := at' transTargs t } with
      | none => .undef
      | some m' => .again m'
  | .again m => if (toState m).cs = 0 then .out (toState m) else .next { toState m with p := (toState m).p + 1 }
  | .next m =>
    if m.p = txt.length then
      if eof ∧ 0 < at' eofTrans m.cs then .trans (at' eofTrans m.cs - 1) m else .out m
    else if m.cs = 0 then .out m
    else .resume m
  | .out m => .out m
  | .undef => .undef

/-- `do_scan` between two gotos: the valid characters in the buffer, whether the end of the input was reached (`done`), the
characters of the stream not read so far, and the place in the generated code. -/
structure Conf where
  txt : List Byte
  eof : Bool
  rest : List Byte
  pc : Pc
  deriving DecidableEq

/-- src/parser/internal/deckscanner.cpp 240-259: one refill of a buffer of `B` characters, of which the first ones are kept. -/
def refill (B : ℕ) (keep rest : List Byte) (m : Regs) : Conf where
  txt := keep ++ rest.take (B - keep.length)
  eof := decide ((rest.take (B - keep.length)).length < B - keep.length)
  rest := rest.drop (B - keep.length)
  pc := .next { m with p := keep.length }

/-- What `do_scan` has come to. -/
inductive Outcome
  /-- Still running. -/
  | running (c : Conf)
  /-- Returned with these tokens. -/
  | ok (toks : List Tok)
  /-- Wrote `TOKENISER ERROR` and the line to standard error and returned with these tokens. -/
  | error (line : ℕ) (toks : List Tok)
  /-- Undefined behaviour. -/
  | undef
  deriving DecidableEq

/-- src/parser/internal/deckscanner.cpp 239-564: from one goto, or one pass of the `while` loop, to the next. -/
def tick (B : ℕ) (c : Conf) : Outcome :=
  match c.pc with
  | .undef => .undef
  | .out m =>
    if m.cs = deckError then .error m.line m.toks
    else if c.eof then .ok m.toks
    else
      match m.ts with
      | none => .running (refill B [] c.rest m)
      | some t =>
        if 0 ≤ t ∧ t ≤ c.txt.length then
          .running (refill B (c.txt.drop t.toNat) c.rest { m with te := m.te - t, ts := some 0 })
        else .undef
  | pc => .running { c with pc := step c.txt c.eof pc }

/-- `n` steps of the scanner with a buffer of `B` characters. -/
def run (B : ℕ) : ℕ → Conf → Outcome
  | 0, c => .running c
  | n + 1, c =>
    match tick B c with
    | .running c' => run B n c'
    | o => o

/-- src/parser/internal/deckscanner.cpp 217-237: the variables at the beginning. -/
def initRegs : Regs := ⟨deckStart, 0, 1, none, 0, 0, []⟩

/-- src/parser/internal/deckscanner.cpp 217-259: the call of `do_scan` on a stream with the given characters, up to the first
refill. -/
def start (B : ℕ) (input : List Byte) : Conf := refill B [] input initRegs

/-- `do_scan` with a buffer of `B` characters returns, with this outcome. -/
def Returns (B : ℕ) (input : List Byte) (o : Outcome) : Prop :=
  (∀ c, o ≠ .running c) ∧ ∃ n, run B n (start B input) = o

/-- The characters of a string literal, for examples. -/
def bytes (s : String) : List Byte := s.toList.map fun c => Fin.ofNat 256 c.toNat

end Schnek.Scanner
