import Verif.Model.Expression

/-!
# Model of the expression part of the grammar

`parser/deckgrammar.y`, `src/parser/parsertoken.cpp`

What is modelled here is the grammar, as the type of its derivation trees, and the actions attached to the rules. The parser generated
by lemon is in Lemon.lean.
-/

namespace Schnek.Deck

/-- Tokens of expressions. A number or string is represented by its value (`boost::lexical_cast` of the text, parsertoken.cpp 98,
112, 126). -/
inductive Token (F : Type)
  | lit (v : Val F)
  | ident (name : String)
  | plus | minus | times | divide | exponent | lbracket | rbracket | comma
deriving DecidableEq

namespace Grammar

mutual

/-- `expression`: deckgrammar.y 45-47 -/
inductive Expression (F : Type) : Type
  | add (a : SignedTerm F) (b : Unsigned F)
  | sub (a : SignedTerm F) (b : Unsigned F)
  | one (a : SignedTerm F)

/-- `unsigned_expression`: deckgrammar.y 49-51 -/
inductive Unsigned (F : Type) : Type
  | add (a : Term F) (b : Unsigned F)
  | sub (a : Term F) (b : Unsigned F)
  | one (a : Term F)

/-- `signed_term_expression`: deckgrammar.y 53-55 -/
inductive SignedTerm (F : Type) : Type
  | plus (a : Term F)
  | minus (a : Term F)
  | one (a : Term F)

/-- `term_expression`: deckgrammar.y 57-59 -/
inductive Term (F : Type) : Type
  | mul (a : Power F) (b : Term F)
  | div (a : Power F) (b : Term F)
  | one (a : Power F)

/-- `exp_expression`: deckgrammar.y 60-61 -/
inductive Power (F : Type) : Type
  | pow (a : Atomic F) (b : SignedAtomic F)
  | one (a : Atomic F)

/-- `signed_atomic_expression`: deckgrammar.y 63-65 -/
inductive SignedAtomic (F : Type) : Type
  | plus (a : Atomic F)
  | minus (a : Atomic F)
  | one (a : Atomic F)

/-- `atomic_expression`: deckgrammar.y 67-71; `lit` and `ident` are the rule `value`, 76-80 (`PATHIDENTIFIER` is left out: its
action always throws, parsertoken.cpp 139) -/
inductive Atomic (F : Type) : Type
  | paren (a : Expression F)
  | call (name : String) (args : ExprList F)
  | callNone (name : String)
  | lit (v : Val F)
  | ident (name : String)

/-- `expressionlist`: deckgrammar.y 73-74 -/
inductive ExprList (F : Type) : Type
  | snoc (a : ExprList F) (b : Expression F)
  | one (a : Expression F)

end

variable {F W : Type}

mutual

/-- the right hand sides of the rules -/
def Expression.tokens : Expression F → List (Token F)
  | .add a b => a.tokens ++ .plus :: b.tokens
  | .sub a b => a.tokens ++ .minus :: b.tokens
  | .one a => a.tokens

/-- the right hand sides of the rules -/
def Unsigned.tokens : Unsigned F → List (Token F)
  | .add a b => a.tokens ++ .plus :: b.tokens
  | .sub a b => a.tokens ++ .minus :: b.tokens
  | .one a => a.tokens

/-- the right hand sides of the rules -/
def SignedTerm.tokens : SignedTerm F → List (Token F)
  | .plus a => .plus :: a.tokens
  | .minus a => .minus :: a.tokens
  | .one a => a.tokens

/-- the right hand sides of the rules -/
def Term.tokens : Term F → List (Token F)
  | .mul a b => a.tokens ++ .times :: b.tokens
  | .div a b => a.tokens ++ .divide :: b.tokens
  | .one a => a.tokens

/-- the right hand sides of the rules -/
def Power.tokens : Power F → List (Token F)
  | .pow a b => a.tokens ++ .exponent :: b.tokens
  | .one a => a.tokens

/-- the right hand sides of the rules -/
def SignedAtomic.tokens : SignedAtomic F → List (Token F)
  | .plus a => .plus :: a.tokens
  | .minus a => .minus :: a.tokens
  | .one a => a.tokens

/-- the right hand sides of the rules -/
def Atomic.tokens : Atomic F → List (Token F)
  | .paren a => .lbracket :: (a.tokens ++ [.rbracket])
  | .call n args => .ident n :: .lbracket :: (args.tokens ++ [.rbracket])
  | .callNone n => [.ident n, .lbracket, .rbracket]
  | .lit v => [.lit v]
  | .ident n => [.ident n]

/-- the right hand sides of the rules -/
def ExprList.tokens : ExprList F → List (Token F)
  | .snoc a b => a.tokens ++ .comma :: b.tokens
  | .one a => a.tokens

end

/-- What the actions look up: `getVariable` in the current block with the variable's type, and the function registry. -/
structure Env (F W : Type) where
  lookup : String → Option (Var × Ty)
  func : String → Option (Func F W)

/-- the loop of `assignFunction`: parsertoken.cpp 202-211; `chain` is the data of the token and of the tokens chained to it -/
def assignFunctionArgs : List (Expr F W) → List (Expr F W) → List (Expr F W)
  | args, [] => args
  | args, e :: chain => assignFunctionArgs (e :: args) chain

mutual

/-- the actions of `expression` -/
def Expression.build (env : Env F W) : Expression F → Option (Expr F W)
  | .add a b => (a.build env).bind fun x => (b.build env).map fun y => assignBinary .add x y
  | .sub a b => (a.build env).bind fun x => (b.build env).map fun y => assignBinary .sub x y
  | .one a => a.build env

/-- the actions of `unsigned_expression` -/
def Unsigned.build (env : Env F W) : Unsigned F → Option (Expr F W)
  | .add a b => (a.build env).bind fun x => (b.build env).map fun y => assignBinary .add x y
  | .sub a b => (a.build env).bind fun x => (b.build env).map fun y => assignBinary .sub x y
  | .one a => a.build env

/-- the actions of `signed_term_expression` -/
def SignedTerm.build (env : Env F W) : SignedTerm F → Option (Expr F W)
  | .plus a => a.build env
  | .minus a => (a.build env).map (assignUnary .neg)
  | .one a => a.build env

/-- the actions of `term_expression` -/
def Term.build (env : Env F W) : Term F → Option (Expr F W)
  | .mul a b => (a.build env).bind fun x => (b.build env).map fun y => assignBinary .mul x y
  | .div a b => (a.build env).bind fun x => (b.build env).map fun y => assignBinary .div x y
  | .one a => a.build env

/-- the actions of `exp_expression` -/
def Power.build (env : Env F W) : Power F → Option (Expr F W)
  | .pow a b => (a.build env).bind fun x => (b.build env).map fun y => assignBinary .pow x y
  | .one a => a.build env

/-- the actions of `signed_atomic_expression` -/
def SignedAtomic.build (env : Env F W) : SignedAtomic F → Option (Expr F W)
  | .plus a => a.build env
  | .minus a => (a.build env).map (assignUnary .neg)
  | .one a => a.build env

/-- the actions of `atomic_expression` and `value`: parsertoken.cpp 91-185, 196-230 -/
def Atomic.build (env : Env F W) : Atomic F → Option (Expr F W)
  | .paren a => (a.build env).map (assignUnary .id)
  | .call n args => (args.build env).bind fun chain => getExpression env.func n (assignFunctionArgs [] chain)
  | .callNone n => getExpression env.func n []
  | .lit v => some (assignUnary .id (.value v))
  | .ident n => (env.lookup n).map fun p => assignUnary .id (.ref p.2 p.1)

/-- the actions of `expressionlist`; the result is the data of the token followed by that of the chained tokens
(`append`, parsertoken.cpp 84-89) -/
def ExprList.build (env : Env F W) : ExprList F → Option (List (Expr F W))
  | .snoc a b => (a.build env).bind fun l => (b.build env).map fun y => y :: l
  | .one a => (a.build env).map fun y => [y]

end

end Grammar

end Schnek.Deck
