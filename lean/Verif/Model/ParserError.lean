import Verif.Model.ParserToken
import Verif.Model.Fault

/-!
# Model of the exceptions thrown while a setup file is read

`src/parser/parsertoken.hpp`, `parsertoken.cpp`, `parser.cpp`, `src/parser/tokenlist.hpp`

ParserToken.lean models what the actions of the rules do, with `none` for any exception. Here it is modelled which exception that is, with
its message and its line. For this a token on the parser's stack also has the line of its `atomTok`.
-/

namespace Schnek.Deck

open ParserToken

/-- `message` of a `ParserError`: parsertoken.hpp 55-63, without the wording -/
inductive Message
  /-- "Variable '…' not defined": parsertoken.cpp 180 -/
  | notDefined (name : String)
  /-- "Could not evaluate empty expression (local variables must be initialised where they are declared)": parsertoken.cpp 242 -/
  | notInitialised
  /-- "Can't convert expression to …": parsertoken.cpp 360, 364, 368 -/
  | wrongType (type : Ty)
  /-- "Redeclaration of variable '…'": parsertoken.cpp 301 -/
  | redeclaration (name : String)
  /-- "Variable '…' was not declared!": parsertoken.cpp 337 -/
  | notDeclared (name : String)
  /-- "Variable '…' is read only! It can not be assigned a value!": parsertoken.cpp 341 -/
  | readOnly (name : String)
  /-- "Block class … not allowed inside …": parsertoken.cpp 425 -/
  | notAllowed (blockClass parentClass : String)
  /-- "Duplicate block definition '…'": parsertoken.cpp 444 -/
  | duplicateBlock (name : String)
  /-- "Unknown block class '…'": parsertoken.cpp 448 -/
  | unknownClass (blockClass : String)
  /-- "Extra } found.": parsertoken.cpp 456 -/
  | extraBrace
  /-- a token is not of the type that is expected: parsertoken.cpp 96-97, 110-111, 124-125, 138-139, 173, 192, 263-264, 351, 371, 376,
  399, 403, 410-414 -/
  | confused
deriving DecidableEq

/-- What the actions throw. -/
inductive Exc
  /-- `ParserError` with this message and the line of this token: parsertoken.hpp 55-63 -/
  | parserError (message : Message) (line : ℕ)
  /-- `FunctionNotFoundException`, an `EvaluationException`: expression.hpp 73-77, function_expression.hpp 240-244 -/
  | functionNotFound (name : String)
  /-- `WrongNumberOfArgsException`, an `EvaluationException`: expression.hpp 67-71, function_expression.hpp 109-112, 128-138 -/
  | wrongNumberOfArgs
  /-- evaluating a constant expression fails: a `TypeCastException`, which is an `EvaluationException`, or one of the other faults of
  Fault.lean: expression.hpp 79-83, parsertoken.cpp 246 -/
  | evaluation (fault : Fault)
  /-- `TypeMismatchException`, which is not an `EvaluationException`: types.hpp 101-105, variables.cpp 108 -/
  | typeMismatch
  /-- `boost::bad_lexical_cast`: parsertoken.cpp 98, 112 -/
  | badLexicalCast
  /-- not an exception: a null pointer is used -/
  | nullPointer
deriving DecidableEq

/-- The lines of a token on the parser's stack and of the tokens chained to it: `Token::line`, tokenlist.hpp 40, 47-54. That of a default
constructed token is not initialised; 0 stands for it. -/
structure Lines where
  head : ℕ
  chain : List ℕ

section

variable {F W : Type}

/-- the value of a token of the scanner: parsertoken.cpp 54-58, with its line -/
def linedAtom (t : Scanner.Tok) : ParserToken F W × Lines := (.atom t, ⟨t.line, []⟩)

/-- Which `atomTok` the token made by an action has: deckgrammar.inc 767-993, parsertoken.cpp 54-75, 84-89, 95, 109, 123, 137, 198-200,
221-223, 262, parsertoken.t 186, 198. -/
def lineAct (rule : ℕ) (vs : List Lines) : Lines :=
  match rule, vs with
  | 11, [a, _, b] => ⟨b.head, a.head :: a.chain⟩
  | 12, [a] => a
  | 13, [a] => a
  | 14, [a] => a
  | 16, [a, _, _] => ⟨a.head, []⟩
  | 17, [a, _, _] => ⟨a.head, []⟩
  | 18, [a, _, _] => ⟨a.head, []⟩
  | 19, [a] => a
  | 20, [a, _, _] => ⟨a.head, []⟩
  | 21, [a, _, _] => ⟨a.head, []⟩
  | 22, [a] => a
  | 23, [_, a] => a
  | 24, [_, a] => ⟨a.head, []⟩
  | 25, [a] => a
  | 26, [a, _, _] => ⟨a.head, []⟩
  | 27, [a, _, _] => ⟨a.head, []⟩
  | 28, [a] => a
  | 29, [a, _, _] => ⟨a.head, []⟩
  | 30, [a] => a
  | 31, [_, a] => a
  | 32, [_, a] => ⟨a.head, []⟩
  | 33, [a] => a
  | 34, [_, a, _] => ⟨a.head, []⟩
  | 35, [_, _, b, _] => ⟨b.head, []⟩
  | 36, [a, _, _] => ⟨a.head, []⟩
  | 37, [a] => ⟨a.head, []⟩
  | 38, [a, _, b] => ⟨b.head, a.head :: a.chain⟩
  | 39, [a] => a
  | 40, [a] => ⟨a.head, []⟩
  | 41, [a] => ⟨a.head, []⟩
  | 42, [a] => ⟨a.head, []⟩
  | 43, [a] => ⟨a.head, []⟩
  | 44, [a] => ⟨a.head, []⟩
  | 45, [a] => a
  | 46, [a] => a
  | 47, [a] => a
  | _, _ => ⟨0, []⟩

/-! ## what the actions throw, if they throw -/

/-- `assignInteger`: parsertoken.cpp 91-103 -/
def excInteger (p : TokData F W) (line : ℕ) : Exc :=
  if p.type ≠ .atom ∨ p.kind ≠ some .integer then .parserError .confused line else .badLexicalCast

/-- `assignFloat`: parsertoken.cpp 105-117 -/
def excFloat (p : TokData F W) (line : ℕ) : Exc :=
  if p.type ≠ .atom ∨ p.kind ≠ some .float then .parserError .confused line else .badLexicalCast

/-- `assignIdentifier`: parsertoken.cpp 133-186 -/
def excIdentifier (p : TokData F W) (line : ℕ) : Exc :=
  if p.type ≠ .atom ∨ p.kind ≠ some .identifier then .parserError .confused line else .parserError (.notDefined p.text) line

/-- `getExpression`, called in `assignFunction`: parsertoken.cpp 214, 228, function_expression.hpp 240-244, 109-112, 128-138 -/
def excFunction (H : Host F W) (name : String) : Exc :=
  match H.func name with
  | none => .functionNotFound name
  | some _ => .wrongNumberOfArgs

/-- `ensureVariable`: parsertoken.cpp 345-405 -/
def excEnsure (typedecl t : TokData F W) (tline line : ℕ) : Exc :=
  if typedecl.type ≠ .atom then .parserError .confused tline
  else match t.type, declTy typedecl.kind with
    | .statement, some ty => .parserError (.wrongType ty) tline
    | .statement, none => .parserError .confused tline
    | .atom, some _ => .parserError .confused line
    | .atom, none => if t.kind ≠ some .identifier then .parserError .confused line else .parserError .confused tline
    | _, _ => .parserError .confused line

/-- evaluating the expression in `evaluateVisitor`: parsertoken.cpp 246 -/
def excEvaluate (H : Host F W) (D : DeckState F W) (e : Expr F W) : Exc :=
  match e.tryEval H.ops D.state with
  | .error f => .evaluation f
  | .ok _ => .nullPointer

/-- `storeVariable` without the chained tokens: parsertoken.cpp 232-256, 283-302 -/
def excStoreData (H : Host F W) (typedecl : TokData F W) (tline : ℕ) (D : DeckState F W) (t : TokData F W) (line : ℕ) : Exc :=
  match t.data with
  | none => .parserError .notInitialised line
  | some e =>
    match D.evaluate H e with
    | none => excEvaluate H D e
    | some x =>
      match ensureVariable H { D with nextId := D.nextId + 1 } typedecl t x with
      | (none, _) => excEnsure typedecl t tline line
      | (some _, _) => .parserError (.redeclaration t.text) line

/-- `storeVariable`: parsertoken.cpp 283-305. It is the first of the tokens that cannot be stored that throws. -/
def excStore (H : Host F W) (typedecl : TokData F W) (tline : ℕ) : List (TokData F W) → List ℕ → DeckState F W → Exc
  | t :: ts, line :: lines, D =>
    match storeData H typedecl D t with
    | (true, D') => excStore H typedecl tline ts lines D'
    | (false, _) => excStoreData H typedecl tline D t line
  | _, _, _ => .nullPointer

/-- `updateVariable`: parsertoken.cpp 307-343 -/
def excUpdate (H : Host F W) (D : DeckState F W) (p : TokData F W) (line : ℕ) : Exc :=
  match D.store.getVariable D.store.cursor p.text with
  | none => .parserError (.notDeclared p.text) line
  | some v =>
    match D.heap[v]?, p.data with
    | some x, some e =>
      match D.evaluate H (DeckState.promoteAssign (DeckState.lhsType x) e) with
      | none => excEvaluate H D (DeckState.promoteAssign (DeckState.lhsType x) e)
      | some y => if x.ty ≠ y.ty then .typeMismatch else .parserError (.readOnly p.text) line
    | _, _ => .nullPointer

/-- `createBlock`: parsertoken.cpp 407-450 -/
def excCreate (D : DeckState F W) (cls p : TokData F W) (cline line : ℕ) : Exc :=
  if cls.type ≠ .atom ∨ cls.kind ≠ some .identifier then .parserError .confused cline
  else if p.type ≠ .atom ∨ p.kind ≠ some .identifier then .parserError .confused cline
  else if D.restr && !D.hasChild D.currentClass cls.text then
    match find D.classes D.currentClass with
    | none => .parserError (.unknownClass cls.text) line
    | some _ => .parserError (.notAllowed cls.text D.currentClass) line
  else .parserError (.duplicateBlock p.text) line

/-- The exception of an action that throws: deckgrammar.inc 767-993. An action that is not listed does not throw, unless a pointer it
expects is null. -/
def excAct (H : Host F W) (rule : ℕ) (vs : List (ParserToken F W × Lines)) (D : DeckState F W) : Exc :=
  match rule, vs with
  | 3, [t, decl, _] => excStore H t.1.head t.2.head (decl.1.head :: decl.1.chain) (decl.2.head :: decl.2.chain) D
  | 4, [t, _] => excUpdate H D t.1.head t.2.head
  | 7, [t] => .parserError .extraBrace t.2.head
  | 9, [c, n, _] => excCreate D c.1.head n.1.head c.2.head n.2.head
  | 10, [c, _] => excCreate D c.1.head c.1.head c.2.head c.2.head
  | 16, [a, _, _] => .parserError .confused a.2.head
  | 35, [a, _, b, _] => match datas (b.1.head :: b.1.chain) with
    | none => .nullPointer
    | some _ => excFunction H a.1.head.text
  | 36, [a, _, _] => excFunction H a.1.head.text
  | 39, [a] => .parserError .confused a.2.head
  | 40, [a] => excIdentifier a.1.head a.2.head
  | 41, [a] => excIdentifier a.1.head a.2.head
  | 42, [a] => excInteger a.1.head a.2.head
  | 43, [a] => excFloat a.1.head a.2.head
  | 44, [a] => .parserError .confused a.2.head
  | _, _ => .nullPointer

/-- The actions of the rules (`deckAct`) with lines and exceptions: deckgrammar.inc 767-993. The second part of the state is the exception
that has been thrown. -/
def excDeckAct (H : Host F W) : Lemon.Actions (ParserToken F W × Lines) (DeckState F W × Option Exc) := fun rule vs s =>
  match deckAct H rule (vs.map Prod.fst) s.1 with
  | (some p, D') => (some (p, lineAct rule (vs.map Prod.snd)), (D', s.2))
  | (none, D') => (none, (D', some (excAct H rule vs s.1)))

/-- How `Parser::parse` ends, with the exception, and what it leaves behind. -/
inductive ParseEnd (F W : Type)
  /-- it returns -/
  | ok (D : DeckState F W)
  /-- this is thrown -/
  | thrown (e : Exc) (D : DeckState F W)
  /-- `ParserError` "Syntax Error", with this line: parser.cpp 89 -/
  | syntaxError (line : ℕ) (D : DeckState F W)
  /-- `ParserInternalError` -/
  | internalError (D : DeckState F W)
  /-- a failed assertion in `DependencyMap`, or undefined behaviour -/
  | undef

/-- parser.cpp 83-102 -/
def concludeExc (H : Host F W) (toks : List Scanner.Tok) :
    Lemon.Outcome (ParserToken F W × Lines) (DeckState F W × Option Exc) → ParseEnd F W
  | .running _ => .undef
  | .done s => match s.1.finish H with
    | some D => .ok D
    | none => .undef
  | .syntaxError 0 s => .internalError s.1
  | .syntaxError (n + 1) s => .syntaxError ((toks[toks.length - (n + 1)]?.map Scanner.Tok.line).getD 0) s.1
  | .thrown s => .thrown (s.2.getD .nullPointer) s.1
  | .undef => .undef

/-- `Parser::parse` of this text: parser.cpp 55-102, as `Parses`, with the exceptions. -/
def ParsesExc (H : Host F W) (D : DeckState F W) (text : List Scanner.Byte) (result : ParseEnd F W) : Prop :=
  ∃ scan toks o, Scanner.Returns Scanner.bufSize text scan ∧ scanned scan = some toks ∧
    Lemon.Returns (excDeckAct H) Lemon.stackDepth (ParserToken.default, ⟨0, []⟩) (toks.map fun t => (t.kind, linedAtom t)) (D, none) o ∧
    result = concludeExc H toks o

/-- without the exception -/
def ParseEnd.forget : ParseEnd F W → ParseResult F W
  | .ok D => .ok D
  | .thrown _ _ => .exception
  | .syntaxError line _ => .syntaxError line
  | .internalError _ => .internalError
  | .undef => .undef

end

end Schnek.Deck
