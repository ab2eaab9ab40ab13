import Verif.Model.Deck
import Verif.Model.Lemon

/-!
# Model of the values on the parser's stack and of the actions of the rules

`src/parser/parsertoken.hpp`, `parsertoken.cpp`, `parsertoken.t`, the actions in `parser/deckgrammar.y` (`switch` in
`src/parser/deckgrammar.inc` 767-993), `Parser::parse` in `src/parser/parser.cpp`

What happens to the variables, blocks and expressions is modelled in Deck.lean, Variables.lean and Expression.lean. Here it is modelled how the
tokens get there. A result `none` stands for an exception, or for the use of a null pointer; the two are not told apart.
-/

namespace Schnek.Deck

open Scanner (Kind Byte)

/-- `ParserToken::TokenType`: parsertoken.hpp 69-72; the values that are never used are left out -/
inductive TokType
  | statement | expression | expressionlist | intType | floatType | stringType | atom | none
deriving DecidableEq

/-- `ParserToken` without `context` (the same for all tokens), `var` (set before it is used, in `storeVariable`) and `chainedToken`:
parsertoken.hpp 104-115 -/
structure TokData (F W : Type) where
  /-- `atomTok.getToken()`; not initialised (`none`) in a default constructed token -/
  kind : Option Kind
  /-- `atomTok.getString()` -/
  text : String
  type : TokType
  /-- `data`; `none` is the default, a null pointer of type `pIntExpression` -/
  data : Option (Expr F W)

/-- `ParserToken` with the tokens found by following `chainedToken` -/
structure ParserToken (F W : Type) where
  head : TokData F W
  chain : List (TokData F W)

/-- a `std::string`; a `char` is shown as the character with its code -/
def textOf (l : List Byte) : String := String.ofList (l.map fun b => Char.ofNat b.val)

namespace ParserToken

variable {F W : Type}

/-- constructor: parsertoken.cpp 48-51 -/
def default : ParserToken F W := ⟨⟨none, "", .none, none⟩, []⟩

/-- constructor: parsertoken.cpp 54-58 -/
def atom (t : Scanner.Tok) : ParserToken F W := ⟨⟨some t.kind, textOf t.text, .atom, none⟩, []⟩

/-- `append`: parsertoken.cpp 84-89 -/
def append (a b : ParserToken F W) : ParserToken F W := ⟨a.head, b.head :: b.chain⟩

/-- `assignInteger` of a new token: parsertoken.cpp 91-103 -/
def assignInteger (H : Host F W) (p : ParserToken F W) : Option (ParserToken F W) :=
  if p.head.type ≠ .atom ∨ p.head.kind ≠ some .integer then none
  else (H.ops.readInt p.head.text).map fun i => ⟨⟨p.head.kind, p.head.text, .intType, some (.value (.int i))⟩, []⟩

/-- `assignFloat` of a new token: parsertoken.cpp 105-117 -/
def assignFloat (H : Host F W) (p : ParserToken F W) : Option (ParserToken F W) :=
  if p.head.type ≠ .atom ∨ p.head.kind ≠ some .float then none
  else (H.ops.readFloat p.head.text).map fun x => ⟨⟨p.head.kind, p.head.text, .floatType, some (.value (.float x))⟩, []⟩

/-- `assignString` of a new token: parsertoken.cpp 119-131 -/
def assignString (p : ParserToken F W) : Option (ParserToken F W) :=
  if p.head.type ≠ .atom ∨ p.head.kind ≠ some .string then none
  else some ⟨⟨p.head.kind, p.head.text, .stringType, some (.value (.str p.head.text))⟩, []⟩

/-- `assignIdentifier` of a new token: parsertoken.cpp 133-186 -/
def assignIdentifier (H : Host F W) (D : DeckState F W) (p : ParserToken F W) : Option (ParserToken F W) :=
  if p.head.type ≠ .atom ∨ p.head.kind ≠ some .identifier then none
  else ((D.env H).lookup p.head.text).map fun v => ⟨⟨p.head.kind, p.head.text, .expression, some (.ref v.2 v.1)⟩, []⟩

/-- `makeExpressionList`: parsertoken.cpp 188-194 -/
def makeExpressionList (p : ParserToken F W) : Option (ParserToken F W) :=
  if p.head.type ≠ .expression then none else some ⟨{ p.head with type := .expressionlist }, p.chain⟩

/-- The expressions of tokens; null pointers are not expected. -/
def datas : List (TokData F W) → Option (List (Expr F W))
  | [] => some []
  | t :: ts => t.data.bind fun e => (datas ts).map (e :: ·)

/-- `assignFunction` of a new token, with arguments: parsertoken.cpp 196-217 -/
def assignFunction (H : Host F W) (p args : ParserToken F W) : Option (ParserToken F W) :=
  (datas (args.head :: args.chain)).bind fun chain =>
    (getExpression H.func p.head.text (Grammar.assignFunctionArgs [] chain)).map fun e =>
      ⟨⟨args.head.kind, args.head.text, .expression, some e⟩, []⟩

/-- `assignFunction` of a new token, without arguments: parsertoken.cpp 219-230 -/
def assignFunctionNone (H : Host F W) (p : ParserToken F W) : Option (ParserToken F W) :=
  (getExpression H.func p.head.text []).map fun e => ⟨⟨p.head.kind, p.head.text, .expression, some e⟩, []⟩

/-- `assignUnaryOperator` of a new token: parsertoken.t 182-191 -/
def assignUnaryOperator (op : UnOp) (p : ParserToken F W) : Option (ParserToken F W) :=
  p.head.data.map fun e => ⟨⟨p.head.kind, p.head.text, .expression, some (assignUnary op e)⟩, []⟩

/-- `assignBinaryOperator` of a new token: parsertoken.t 193-204 -/
def assignBinaryOperator (op : BinOp) (p q : ParserToken F W) : Option (ParserToken F W) :=
  p.head.data.bind fun a => q.head.data.map fun b => ⟨⟨p.head.kind, p.head.text, .expression, some (assignBinary op a b)⟩, []⟩

/-- `evaluateExpression` of a new token: parsertoken.cpp 258-269 -/
def evaluateExpression (identifier e : ParserToken F W) : Option (ParserToken F W) :=
  if identifier.head.type ≠ .atom ∨ identifier.head.kind ≠ some .identifier then none
  else some ⟨⟨identifier.head.kind, identifier.head.text, .statement, e.head.data⟩, []⟩

/-- the type meant by a keyword: parsertoken.cpp 355-371, 378-400 -/
def declTy : Option Kind → Option Ty
  | some .intDecl => some .int
  | some .floatDecl => some .float
  | some .stringDecl => some .str
  | _ => none

/-- `ensureVariable`: parsertoken.cpp 345-405; `x` is `var`. The result is `var` afterwards. -/
def ensureVariable (H : Host F W) (D : DeckState F W) (typedecl t : TokData F W) (x : Variable F W) :
    Option (Variable F W) × DeckState F W :=
  if typedecl.type ≠ .atom then (none, D)
  else match t.type, declTy typedecl.kind with
    | .statement, some ty => if x.ty = ty then (some x, D) else (none, D)
    | .atom, some ty =>
      if t.kind ≠ some .identifier then (none, D)
      else (some (.ofValue (DeckState.zero H ty) true false D.nextId), { D with nextId := D.nextId + 1 })
    | _, _ => (none, D)

/-- `storeVariable` without the chained tokens: parsertoken.cpp 283-302 -/
def storeData (H : Host F W) (typedecl : TokData F W) (D : DeckState F W) (t : TokData F W) : Bool × DeckState F W :=
  match t.data with
  | none => (false, D)
  | some e =>
    match D.evaluate H e with
    | none => (false, D)
    | some x =>
      match ensureVariable H { D with nextId := D.nextId + 1 } typedecl t x with
      | (none, D') => (false, D')
      | (some x', D') =>
        match D'.store.addVariable t.text D'.heap.length with
        | none => (false, D')
        | some st => (true, { D' with store := st, heap := D'.heap ++ [x'] })

/-- `storeVariable`: parsertoken.cpp 283-305 -/
def storeVariable (H : Host F W) (D : DeckState F W) (typedecl p : ParserToken F W) : Bool × DeckState F W :=
  DeckState.chain (storeData H typedecl.head) (p.head :: p.chain) D

/-- `updateVariable`: parsertoken.cpp 307-343 -/
def updateVariable (H : Host F W) (D : DeckState F W) (p : ParserToken F W) : Bool × DeckState F W :=
  match D.store.getVariable D.store.cursor p.head.text with
  | none => (false, D)
  | some v =>
    match D.heap[v]?, p.head.data with
    | some x, some e =>
      match D.evaluate H (DeckState.promoteAssign (DeckState.lhsType x) e) with
      | none => (false, D)
      | some y =>
        match x.assign y with
        | none => (false, { D with nextId := D.nextId + 1 })
        | some x' => (true, { D with heap := D.heap.set v x', nextId := D.nextId + 1 })
    | _, _ => (false, D)

/-- `createBlock`: parsertoken.cpp 407-450 -/
def createBlock (H : Host F W) (D : DeckState F W) (cls p : ParserToken F W) : Bool × DeckState F W :=
  if cls.head.type ≠ .atom ∨ cls.head.kind ≠ some .identifier then (false, D)
  else if p.head.type ≠ .atom ∨ p.head.kind ≠ some .identifier then (false, D)
  else D.createBlock H cls.head.text p.head.text

end ParserToken

open ParserToken

section

variable {F W : Type}

/-- an action that does not change anything but its own token -/
def quiet (D : DeckState F W) (p : Option (ParserToken F W)) : Option (ParserToken F W) × DeckState F W := (p, D)

/-- an action without value: deckgrammar.inc 764 -/
def effect (r : Bool × DeckState F W) : Option (ParserToken F W) × DeckState F W :=
  (if r.1 then some ParserToken.default else none, r.2)

/-- The actions of the rules: deckgrammar.y 21-84, deckgrammar.inc 767-993. -/
def deckAct (H : Host F W) : Lemon.Actions (ParserToken F W) (DeckState F W) := fun rule vs D =>
  match rule, vs with
  | 3, [t, decl, _] => effect (storeVariable H D t decl)
  | 4, [t, _] => effect (updateVariable H D t)
  | 7, [_] => effect D.endBlock
  | 9, [c, n, _] => effect (createBlock H D c n)
  | 10, [c, _] => effect (createBlock H D c c)
  | 11, [a, _, b] => quiet D (some (b.append a))
  | 12, [a] => quiet D (some a)
  | 13, [a] => quiet D (some a)
  | 14, [a] => quiet D (some a)
  | 16, [a, _, b] => quiet D (ParserToken.evaluateExpression a b)
  | 17, [a, _, b] => quiet D (assignBinaryOperator .add a b)
  | 18, [a, _, b] => quiet D (assignBinaryOperator .sub a b)
  | 19, [a] => quiet D (some a)
  | 20, [a, _, b] => quiet D (assignBinaryOperator .add a b)
  | 21, [a, _, b] => quiet D (assignBinaryOperator .sub a b)
  | 22, [a] => quiet D (some a)
  | 23, [_, a] => quiet D (some a)
  | 24, [_, a] => quiet D (assignUnaryOperator .neg a)
  | 25, [a] => quiet D (some a)
  | 26, [a, _, b] => quiet D (assignBinaryOperator .mul a b)
  | 27, [a, _, b] => quiet D (assignBinaryOperator .div a b)
  | 28, [a] => quiet D (some a)
  | 29, [a, _, b] => quiet D (assignBinaryOperator .pow a b)
  | 30, [a] => quiet D (some a)
  | 31, [_, a] => quiet D (some a)
  | 32, [_, a] => quiet D (assignUnaryOperator .neg a)
  | 33, [a] => quiet D (some a)
  | 34, [_, a, _] => quiet D (assignUnaryOperator .id a)
  | 35, [a, _, b, _] => quiet D (assignFunction H a b)
  | 36, [a, _, _] => quiet D (assignFunctionNone H a)
  | 37, [a] => quiet D (assignUnaryOperator .id a)
  | 38, [a, _, b] => quiet D (some (b.append a))
  | 39, [a] => quiet D (makeExpressionList a)
  | 40, [a] => quiet D (assignIdentifier H D a)
  | 41, [a] => quiet D (assignIdentifier H D a)
  | 42, [a] => quiet D (assignInteger H a)
  | 43, [a] => quiet D (assignFloat H a)
  | 44, [a] => quiet D (assignString a)
  | 45, [a] => quiet D (some a)
  | 46, [a] => quiet D (some a)
  | 47, [a] => quiet D (some a)
  | _, _ => quiet D (some ParserToken.default)

/-- How `Parser::parse` ends. -/
inductive ParseResult (F W : Type)
  /-- it returns -/
  | ok (D : DeckState F W)
  /-- `ParserError` "Syntax Error", with this line -/
  | syntaxError (line : ℕ)
  /-- `ParserInternalError` -/
  | internalError
  /-- an exception thrown by an action -/
  | exception
  /-- a failed assertion in `DependencyMap`, or undefined behaviour -/
  | undef

/-- the tokens of the scanner: parser.cpp 59, deckscanner.rl; an error of the scanner is only written to `std::cerr` -/
def scanned : Scanner.Outcome → Option (List Scanner.Tok)
  | .ok toks => some toks
  | .error _ toks => some toks
  | _ => none

/-- parser.cpp 83-102 -/
def conclude (H : Host F W) (toks : List Scanner.Tok) (o : Lemon.Outcome (ParserToken F W) (DeckState F W)) : ParseResult F W :=
  match Lemon.report (toks.map fun t => (t.kind, (ParserToken.atom t : ParserToken F W))) o with
  | .ok D => match D.finish H with
    | some D' => .ok D'
    | none => .undef
  | .parserError i => .syntaxError ((toks[i]?.map Scanner.Tok.line).getD 0)
  | .internalError => .internalError
  | .thrown => .exception
  | .undef => .undef

/-- `Parser::parse` of this text: parser.cpp 55-102. `D` is the state before the loop over the tokens (`DeckState.start`). -/
def Parses (H : Host F W) (D : DeckState F W) (text : List Byte) (result : ParseResult F W) : Prop :=
  ∃ scan toks o, Scanner.Returns Scanner.bufSize text scan ∧ scanned scan = some toks ∧
    Lemon.Returns (deckAct H) Lemon.stackDepth ParserToken.default (toks.map fun t => (t.kind, ParserToken.atom t)) D o ∧
    result = conclude H toks o

end

end Schnek.Deck
