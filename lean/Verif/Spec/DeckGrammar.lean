import Verif.Model.Scanner

/-!
# The grammar of setup files

The context-free grammar that is written in `parser/deckgrammar.y`, and what it means for a sequence of tokens to be generated by it.
Nothing here refers to the parser.
-/

namespace Schnek.Spec

open Scanner (Kind)

/-- The nonterminals of `parser/deckgrammar.y`. -/
inductive NT
  | deck | statementlist | statement | typedecl | decllist | assignment | startblock | declaration | expression | signedTerm
  | unsignedExpr | term | power | atomic | signedAtomic | exprList | value
  deriving DecidableEq, Repr

/-- A symbol on the right hand side of a rule. `error` generates nothing: it is used by lemon for error recovery. -/
inductive Sym
  | t (k : Kind)
  | n (N : NT)
  | error
  deriving DecidableEq, Repr

/-- The rules of `parser/deckgrammar.y` 20-84, in their order. -/
def rules : List (NT × List Sym) := [
  (.deck, [.n .statementlist]),
  (.statementlist, [.n .statementlist, .n .statement]),
  (.statementlist, [.n .statement]),
  (.statement, [.n .typedecl, .n .decllist, .t .semicolon]),
  (.statement, [.n .assignment, .t .semicolon]),
  (.statement, [.t .includeKw, .t .string, .t .semicolon]),
  (.statement, [.n .startblock]),
  (.statement, [.t .rbrace]),
  (.statement, [.error]),
  (.startblock, [.t .identifier, .t .identifier, .t .lbrace]),
  (.startblock, [.t .identifier, .t .lbrace]),
  (.decllist, [.n .decllist, .t .comma, .n .declaration]),
  (.decllist, [.n .declaration]),
  (.declaration, [.t .identifier]),
  (.declaration, [.n .assignment]),
  (.declaration, [.error]),
  (.assignment, [.t .identifier, .t .equal, .n .expression]),
  (.expression, [.n .signedTerm, .t .plus, .n .unsignedExpr]),
  (.expression, [.n .signedTerm, .t .minus, .n .unsignedExpr]),
  (.expression, [.n .signedTerm]),
  (.unsignedExpr, [.n .term, .t .plus, .n .unsignedExpr]),
  (.unsignedExpr, [.n .term, .t .minus, .n .unsignedExpr]),
  (.unsignedExpr, [.n .term]),
  (.signedTerm, [.t .plus, .n .term]),
  (.signedTerm, [.t .minus, .n .term]),
  (.signedTerm, [.n .term]),
  (.term, [.n .power, .t .times, .n .term]),
  (.term, [.n .power, .t .divide, .n .term]),
  (.term, [.n .power]),
  (.power, [.n .atomic, .t .exponent, .n .signedAtomic]),
  (.power, [.n .atomic]),
  (.signedAtomic, [.t .plus, .n .atomic]),
  (.signedAtomic, [.t .minus, .n .atomic]),
  (.signedAtomic, [.n .atomic]),
  (.atomic, [.t .lbracket, .n .expression, .t .rbracket]),
  (.atomic, [.t .identifier, .t .lbracket, .n .exprList, .t .rbracket]),
  (.atomic, [.t .identifier, .t .lbracket, .t .rbracket]),
  (.atomic, [.n .value]),
  (.exprList, [.n .exprList, .t .comma, .n .expression]),
  (.exprList, [.n .expression]),
  (.value, [.t .pathIdentifier]),
  (.value, [.t .identifier]),
  (.value, [.t .integer]),
  (.value, [.t .float]),
  (.value, [.t .string]),
  (.typedecl, [.t .intDecl]),
  (.typedecl, [.t .floatDecl]),
  (.typedecl, [.t .stringDecl])]

theorem rules_length : rules.length = 48 := rfl

/-- The left hand side of a rule. -/
def lhs (r : Fin 48) : NT := (rules[r]'(by rw [rules_length]; exact r.isLt)).1

/-- The right hand side of a rule. -/
def rhs (r : Fin 48) : List Sym := (rules[r]'(by rw [rules_length]; exact r.isLt)).2

/-- A sequence of derivation trees, given by the first one and the rest. A tree is a token with its value, or a rule with the
trees of the symbols on its right hand side. -/
inductive Forest (V : Type)
  | nil
  | tok (k : Kind) (v : V) (rest : Forest V)
  | node (r : Fin 48) (kids rest : Forest V)

namespace Forest

variable {V S : Type}

/-- The symbols at the roots. -/
def syms : Forest V → List Sym
  | nil => []
  | tok k _ rest => .t k :: rest.syms
  | node r _ rest => .n (lhs r) :: rest.syms

/-- The tokens at the leaves. -/
def yield : Forest V → List (Kind × V)
  | nil => []
  | tok k v rest => (k, v) :: rest.yield
  | node _ kids rest => kids.yield ++ rest.yield

/-- The trees follow the rules. -/
def Valid : Forest V → Prop
  | nil => True
  | tok _ _ rest => rest.Valid
  | node r kids rest => kids.syms = rhs r ∧ kids.Valid ∧ rest.Valid

/-- The trees are derivations of the symbols, and generate the tokens. -/
structure Derives (F : Forest V) (symbols : List Sym) (tokens : List (Kind × V)) : Prop where
  valid : F.Valid
  roots : F.syms = symbols
  leaves : F.yield = tokens

/-- The actions of the rules executed bottom up and from left to right: every action is executed after those in the subtrees, with their
values, and the trees are done one after the other. `none` is an exception, nothing is executed after it. The result are the values of
the roots. -/
def eval (act : ℕ → List V → S → Option V × S) : Forest V → S → Option (List V) × S
  | nil, s => (some [], s)
  | tok _ v rest, s =>
    match rest.eval act s with
    | (some vs, s') => (some (v :: vs), s')
    | (none, s') => (none, s')
  | node r kids rest, s =>
    match kids.eval act s with
    | (none, s') => (none, s')
    | (some ws, s') =>
      match act r ws s' with
      | (none, s2) => (none, s2)
      | (some v, s2) =>
        match rest.eval act s2 with
        | (some vs, s3) => (some (v :: vs), s3)
        | (none, s3) => (none, s3)

/-- The trees are built from the leaves with a stack that has `h` entries at first: a token is pushed, and when all subtrees of a node
are on the stack they are replaced by one entry for the node. This is the largest number of entries. -/
def height : Forest V → ℕ → ℕ
  | nil, h => h
  | tok _ _ rest, h => rest.height (h + 1)
  | node _ kids rest, h => max (kids.height h) (rest.height (h + 1))

end Forest

/-- The tokens are a setup file according to the grammar. -/
def Grammatical {V : Type} (tokens : List (Kind × V)) : Prop := ∃ F : Forest V, F.Derives [.n .deck] tokens

/-- The tokens that end a statement: `;`, `{` and `}`. -/
def endsStatement : Kind → Bool
  | .semicolon | .lbrace | .rbrace => true
  | _ => false

/-- No `n` consecutive tokens without `;`, `{` or `}`: no statement is longer than `n` tokens. -/
def ShortStatements (n : ℕ) (kinds : List Kind) : Prop :=
  ∀ before run after, kinds = before ++ run ++ after → (∀ k ∈ run, endsStatement k = false) → run.length < n

end Schnek.Spec

