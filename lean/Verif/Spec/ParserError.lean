import Verif.Model.ParserError
import Verif.Spec.Variables
import Verif.Spec.DeckGrammar
import Verif.Spec.DeckText
import Verif.Spec.Fault

/-!
# When an exception from reading a setup file tells the truth
-/

namespace Schnek.Spec

open Schnek.Deck Schnek.Scanner

variable {F W : Type}

/-- The name is one of the tokens, in this line. -/
def NameAt (part : List Tok) (name : String) (line : ℕ) : Prop :=
  ∃ t ∈ part, t.kind = .identifier ∧ textOf t.text = name ∧ t.line = line

/-- One of the tokens is a name that is not followed by `=`, in this line. -/
def BareNameAt (part : List Tok) (line : ℕ) : Prop :=
  ∃ a t b, part = a ++ t :: b ∧ t.kind = .identifier ∧ t.line = line ∧ ∀ u, b.head? = some u → u.kind ≠ .equal

/-- the keyword of a type -/
def keyword : Ty → Kind
  | .int => .intDecl
  | .float => .floatDecl
  | .str => .stringDecl

/-- The name, used in the block that is open, does not mean a variable. -/
def Unknown (D : DeckState F W) (name : String) : Prop :=
  ∀ path, Written ':' path name → ∀ v, ¬ Resolves D.store D.store.cursor path v

/-- The tokens are this expression. -/
def IsExpression (O : FloatOps F) (toks : List Tok) (g : Grammar.Expression F) : Prop :=
  toks.map (meaning O) = (g.tokens.map DeckToken.expr).map some

/-- the number of expressions in a list -/
def arguments : Grammar.ExprList F → ℕ
  | .snoc l _ => arguments l + 1
  | .one _ => 1

/-- The tokens are a list of `n` expressions. -/
def IsArguments (O : FloatOps F) (toks : List Tok) (n : ℕ) : Prop :=
  toks = [] ∧ n = 0 ∨ ∃ l : Grammar.ExprList F, toks.map (meaning O) = (l.tokens.map DeckToken.expr).map some ∧ arguments l = n

/-- One of the tokens is `=`, followed by an expression that stands for this value (with the variables of `D`). -/
def ValueIn (H : Host F W) (D : DeckState F W) (part : List Tok) (x : Expr F W) : Prop :=
  ∃ a u sub b g, part = a ++ u :: (sub ++ b) ∧ u.kind = .equal ∧ IsExpression H.ops sub g ∧ g.build (D.env H) = some x

/-- The exception is true of a part of the tokens and of what has been read (`D0` before the statement, `D` in the end): the line is that of
the token it is about, which is one of the part, and what the message says is so. It is false that a token has been confused with another,
that the class of an open block is not registered, that types do not match in an assignment, and that a pointer is null. -/
def Tells (H : Host F W) (D0 D : DeckState F W) (part : List Tok) : Exc → Prop
  | .parserError (.notDefined n) line => NameAt part n line ∧ Unknown D n
  | .parserError .notInitialised line => BareNameAt part line
  | .parserError (.wrongType ty) line => (∃ t ∈ part, t.kind = keyword ty ∧ t.line = line) ∧ ∃ x, ValueIn H D0 part x ∧ x.ty ≠ ty
  | .parserError (.redeclaration n) line => NameAt part n line ∧ ∃ v, Declares D.store D.store.cursor n v
  | .parserError (.notDeclared n) line => NameAt part n line ∧ Unknown D n
  | .parserError (.readOnly n) line => NameAt part n line ∧ ∀ path, Written ':' path n →
      ∃ v x, Resolves D.store D.store.cursor path v ∧ D.heap[v]? = some x ∧ x.readOnly = true
  | .parserError (.notAllowed c p) line => (∃ n, NameAt part n line) ∧ (∃ l, NameAt part c l) ∧ D.restr = true ∧
      (∃ B, D.store.blocks[D.store.cursor]? = some B ∧ B.className = p) ∧
      ∃ d, find D.classes p = some d ∧ c ∉ d.allowedChildren
  | .parserError (.duplicateBlock n) line => NameAt part n line ∧ ∃ b, ChildNamed D.store D.store.cursor n b
  | .parserError (.unknownClass _) _ => False
  | .parserError .extraBrace line => (∃ t ∈ part, t.kind = .rbrace ∧ t.line = line) ∧ ∀ b, ¬ DirectlyIn D.store b D.store.cursor
  | .parserError .confused _ => False
  | .functionNotFound n => (∃ t l rest, part = t :: l :: rest ∧ t.kind = .identifier ∧ textOf t.text = n ∧ l.kind = .lbracket) ∧
      H.func n = none
  | .wrongNumberOfArgs => ∃ t l args r f n, part = t :: l :: (args ++ [r]) ∧ t.kind = .identifier ∧ l.kind = .lbracket ∧
      r.kind = .rbracket ∧ H.func (textOf t.text) = some f ∧ IsArguments H.ops args n ∧ n ≠ f.params.length
  | .evaluation f => f ≠ .badGet ∧ ∃ x y, ValueIn H D0 part x ∧ (y = x ∨ ∃ t, y = .cast t x) ∧ y.isConstant D.state = true ∧
      Reason H.ops D.state y f
  | .badLexicalCast => ∃ t ∈ part, t.kind = .integer ∧ H.ops.readInt (textOf t.text) = none ∨
      t.kind = .float ∧ H.ops.readFloat (textOf t.text) = none
  | .typeMismatch => False
  | .nullPointer => False

/-- Of these tokens only the last one may be `;`, `{` or `}`: they belong to one statement. -/
def OneStatement (part : List Tok) : Prop := ∀ a t b, part = a ++ t :: b → b ≠ [] → endsStatement t.kind = false

/-- Nothing has been changed, except that variables may have been declared: the same block is open, no block has been made, and all variables
have the value and the expression they had. -/
def Untouched (D D' : DeckState F W) : Prop :=
  ∃ st heap id, D' = { D with store := st, heap := D.heap ++ heap, nextId := id } ∧ st.cursor = D.store.cursor ∧
    st.blocks.length = D.store.blocks.length ∧ ∀ b n v, Declares D.store b n v → Declares st b n v

/-- the exceptions that the manual promises: `ParserError` and `EvaluationException`. What a function of the program throws is counted
among them. -/
def Documented : Exc → Prop
  | .parserError _ _ | .functionNotFound _ | .wrongNumberOfArgs | .evaluation .typeCast | .evaluation .function => True
  | _ => False

end Schnek.Spec
