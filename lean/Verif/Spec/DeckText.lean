import Verif.Model.ParserToken

/-!
# Which statements a sequence of tokens stands for

The tokens of an expression are in Model/Grammar.lean (`Expression.tokens`, …).
-/

namespace Schnek.Spec

open Schnek.Deck Schnek.Scanner

variable {F : Type}

/-- The tokens of statements, with the meaning of names and literals. -/
inductive DeckToken (F : Type)
  | expr (t : Token F)
  | equal | semicolon | lbrace | rbrace
  | type (t : Ty)

/-- What a token of the scanner stands for; literals that cannot be converted stand for nothing. -/
def meaning (O : FloatOps F) (t : Tok) : Option (DeckToken F) :=
  match t.kind with
  | .plus => some (.expr .plus)
  | .minus => some (.expr .minus)
  | .divide => some (.expr .divide)
  | .times => some (.expr .times)
  | .exponent => some (.expr .exponent)
  | .semicolon => some .semicolon
  | .includeKw => none
  | .string => some (.expr (.lit (.str (textOf t.text))))
  | .rbrace => some .rbrace
  | .identifier => some (.expr (.ident (textOf t.text)))
  | .lbrace => some .lbrace
  | .comma => some (.expr .comma)
  | .equal => some .equal
  | .lbracket => some (.expr .lbracket)
  | .rbracket => some (.expr .rbracket)
  | .pathIdentifier => none
  | .integer => (O.readInt (textOf t.text)).map fun i => .expr (.lit (.int i))
  | .float => (O.readFloat (textOf t.text)).map fun x => .expr (.lit (.float x))
  | .intDecl => some (.type .int)
  | .floatDecl => some (.type .float)
  | .stringDecl => some (.type .str)

/-- A name with or without an expression. -/
def declTokens : String × Option (Grammar.Expression F) → List (DeckToken F)
  | (n, none) => [.expr (.ident n)]
  | (n, some e) => .expr (.ident n) :: .equal :: e.tokens.map .expr

/-- The tokens of a statement. -/
inductive StmtTokens : Stmt F → List (DeckToken F) → Prop
  /-- `type name = expression, name = expression, … ;` -/
  | decl (t : Ty) (ds : List (String × Option (Grammar.Expression F))) (hne : ds ≠ []) :
      StmtTokens (.decl t ds) (.type t :: (List.intercalate [.expr .comma] (ds.map declTokens) ++ [.semicolon]))
  /-- `name = expression ;` -/
  | assign (n : String) (e : Grammar.Expression F) :
      StmtTokens (.assign n e) (.expr (.ident n) :: .equal :: (e.tokens.map .expr ++ [.semicolon]))
  /-- `class name {` -/
  | start (c n : String) : StmtTokens (.start c n) [.expr (.ident c), .expr (.ident n), .lbrace]
  /-- `class {` -/
  | startClass (c : String) : StmtTokens (.start c c) [.expr (.ident c), .lbrace]
  /-- `}` -/
  | stop : StmtTokens .stop [.rbrace]

/-- These tokens of the scanner are a statement. -/
def IsStatement (O : FloatOps F) (toks : List Tok) (st : Stmt F) : Prop :=
  ∃ ts, toks.map (meaning O) = ts.map some ∧ StmtTokens st ts

/-- These tokens of the scanner are a setup file with these statements; there is at least one. -/
def IsDeck (O : FloatOps F) (toks : List Tok) (deck : List (Stmt F)) : Prop :=
  deck ≠ [] ∧ ∃ parts, toks = parts.flatten ∧ List.Forall₂ (IsStatement O) parts deck

/-- The same, and no statement has more than `n` tokens. -/
def IsDeckUpTo (O : FloatOps F) (n : ℕ) (toks : List Tok) (deck : List (Stmt F)) : Prop :=
  deck ≠ [] ∧ ∃ parts, toks = parts.flatten ∧ List.Forall₂ (IsStatement O) parts deck ∧ ∀ part ∈ parts, part.length ≤ n

/-- How reading a file with these statements ends: they are executed in order until one of them throws; at the end the dependent
variables are updated. -/
def readAs {W : Type} (H : Host F W) (D : DeckState F W) (deck : List (Stmt F)) : ParseResult F W :=
  match D.run H deck with
  | (false, _) => .exception
  | (true, D1) =>
    match D1.finish H with
    | some D2 => .ok D2
    | none => .undef

end Schnek.Spec
