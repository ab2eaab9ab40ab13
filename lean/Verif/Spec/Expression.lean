import Verif.Model.Grammar

/-!
# Textbook meaning of expressions

The usual left-recursive grammar of arithmetic expressions and the value of the tree it assigns to a sequence of tokens.
-/

namespace Schnek.Spec

open Schnek.Deck

/-- Syntax trees. -/
inductive Ast (F : Type) : Type
  | lit (v : Val F)
  | var (name : String)
  | paren (a : Ast F)
  | neg (a : Ast F)
  | bin (op : BinOp) (a b : Ast F)
  | call (name : String) (args : List (Ast F))

variable {F W : Type}

/-! ## Reading a sequence of tokens -/

mutual

/-- sums: left associative, an optional sign in front applies to the first term -/
inductive IsExpr : List (Token F) → Ast F → Prop
  | term {s a} : IsTerm s a → IsExpr s a
  | plus {s a} : IsTerm s a → IsExpr (.plus :: s) a
  | minus {s a} : IsTerm s a → IsExpr (.minus :: s) (.neg a)
  | add {s a s' b} : IsExpr s a → IsTerm s' b → IsExpr (s ++ .plus :: s') (.bin .add a b)
  | sub {s a s' b} : IsExpr s a → IsTerm s' b → IsExpr (s ++ .minus :: s') (.bin .sub a b)

/-- products: left associative -/
inductive IsTerm : List (Token F) → Ast F → Prop
  | power {s a} : IsPower s a → IsTerm s a
  | mul {s a s' b} : IsTerm s a → IsPower s' b → IsTerm (s ++ .times :: s') (.bin .mul a b)
  | div {s a s' b} : IsTerm s a → IsPower s' b → IsTerm (s ++ .divide :: s') (.bin .div a b)

/-- powers: not associative, the exponent may have a sign -/
inductive IsPower : List (Token F) → Ast F → Prop
  | atom {s a} : IsAtom s a → IsPower s a
  | pow {s a s' b} : IsAtom s a → IsAtom s' b → IsPower (s ++ .exponent :: s') (.bin .pow a b)
  | powPlus {s a s' b} : IsAtom s a → IsAtom s' b → IsPower (s ++ .exponent :: .plus :: s') (.bin .pow a b)
  | powMinus {s a s' b} : IsAtom s a → IsAtom s' b → IsPower (s ++ .exponent :: .minus :: s') (.bin .pow a (.neg b))

/-- numbers, strings, variables, brackets, function calls -/
inductive IsAtom : List (Token F) → Ast F → Prop
  | lit {v} : IsAtom [.lit v] (.lit v)
  | var {n} : IsAtom [.ident n] (.var n)
  | paren {s a} : IsExpr s a → IsAtom (.lbracket :: (s ++ [.rbracket])) (.paren a)
  | call {n s l} : IsArgs s l → IsAtom (.ident n :: .lbracket :: (s ++ [.rbracket])) (.call n l)
  | callNone {n} : IsAtom [.ident n, .lbracket, .rbracket] (.call n [])

/-- arguments separated by commas -/
inductive IsArgs : List (Token F) → List (Ast F) → Prop
  | one {s a} : IsExpr s a → IsArgs s [a]
  | snoc {s l s' a} : IsArgs s l → IsExpr s' a → IsArgs (s ++ .comma :: s') (l ++ [a])

end

/-! ## Values -/

/-- the wider type: `int < float < string` -/
def wider : Ty → Ty → Ty
  | .str, _ => .str
  | _, .str => .str
  | .float, _ => .float
  | _, .float => .float
  | .int, .int => .int

/-- An integer as a value of type `int` (32 bits); undefined if it does not fit. -/
def intValue (i : ℤ) : Option (Val F) := if -2147483648 ≤ i ∧ i ≤ 2147483647 then some (.int i) else none

/-- The operation on two values of one type. Integers: exact, division rounds towards zero. Strings: `+` joins them, the other operators
give the empty string. -/
def operate (O : FloatOps F) (op : BinOp) : Val F → Val F → Option (Val F)
  | .int a, .int b =>
      match op with
      | .add => intValue (a + b)
      | .sub => intValue (a - b)
      | .mul => intValue (a * b)
      | .div => if b = 0 then none else intValue (a.tdiv b)
      | .pow => (O.powInt a b).map .int
  | .float a, .float b =>
      match op with
      | .add => some (.float (O.add a b))
      | .sub => some (.float (O.sub a b))
      | .mul => some (.float (O.mul a b))
      | .div => some (.float (O.div a b))
      | .pow => some (.float (O.pow a b))
  | .str a, .str b => some (.str (if op = .add then a ++ b else ""))
  | _, _ => none

/-- The negative of a value; the empty string for a string. -/
def negated (O : FloatOps F) : Val F → Option (Val F)
  | .int i => intValue (0 - i)
  | .float x => some (.float (O.neg x))
  | .str _ => some (.str "")

/-- A value as a value of another type: numbers as C++ converts them, to and from strings by writing and reading them. -/
def toType (O : FloatOps F) (t : Ty) (v : Val F) : Option (Val F) :=
  if v.ty = t then some v
  else
    match v, t with
    | .int i, .float => some (.float (O.ofInt i))
    | .float x, .int => (O.toInt x).map .int
    | .int i, .str => some (.str (O.showInt i))
    | .float x, .str => some (.str (O.showFloat x))
    | .str s, .int => (O.readInt s).map .int
    | .str s, .float => (O.readFloat s).map .float
    | v, _ => some v

/-- An operator applied to two values: both are converted to the wider type. -/
def applyOp (O : FloatOps F) (op : BinOp) (x y : Val F) : Option (Val F) :=
  (toType O (wider x.ty y.ty) x).bind fun x' => (toType O (wider x.ty y.ty) y).bind fun y' => operate O op x' y'

/-- The arguments converted to the parameter types, if there are as many as parameters. -/
def convertArgs (O : FloatOps F) : List Ty → List (Val F) → Option (List (Val F))
  | [], [] => some []
  | t :: ts, v :: vs => (toType O t v).bind fun v' => (convertArgs O ts vs).map (v' :: ·)
  | _, _ => none

mutual

/-- The value of a tree: operands first, then the operator. -/
def Ast.eval (O : FloatOps F) (env : Grammar.Env F W) (σ : State F W) : Ast F → Option (Val F)
  | .lit v => some v
  | .var n => (env.lookup n).map fun p => σ.value p.1
  | .paren a => a.eval O env σ
  | .neg a => (a.eval O env σ).bind (negated O)
  | .bin op a b => (a.eval O env σ).bind fun x => (b.eval O env σ).bind fun y => applyOp O op x y
  | .call n args => (env.func n).bind fun f => (evalList O env σ args).bind fun vs =>
      (convertArgs O f.params vs).bind (f.call σ.world)

/-- The values of the arguments in the order written. -/
def evalList (O : FloatOps F) (env : Grammar.Env F W) (σ : State F W) : List (Ast F) → Option (List (Val F))
  | [] => some []
  | a :: as => (a.eval O env σ).bind fun v => (evalList O env σ as).map (v :: ·)

end

/-- The type of a tree. -/
def Ast.ty (env : Grammar.Env F W) : Ast F → Ty
  | .lit v => v.ty
  | .var n => ((env.lookup n).map (·.2)).getD .int
  | .paren a => a.ty env
  | .neg a => a.ty env
  | .bin _ a b => wider (a.ty env) (b.ty env)
  | .call n _ => ((env.func n).map (·.result)).getD .int

/-- `+` and `-`, and `*` and `/`, make up chains. -/
def sameLevel : BinOp → BinOp → Bool
  | .add, .add | .add, .sub | .sub, .add | .sub, .sub => true
  | .mul, .mul | .mul, .div | .div, .mul | .div, .div => true
  | _, _ => false

/-- The tree is an unbracketed chain on the level of `op`. -/
def Ast.isChain (op : BinOp) : Ast F → Bool
  | .bin op' _ _ => sameLevel op op'
  | _ => false

mutual

/-- In every chain of more than two operands, each operand from the third on has the type of what is before it. -/
def Ast.Uniform (env : Grammar.Env F W) : Ast F → Prop
  | .lit _ => True
  | .var _ => True
  | .paren a => a.Uniform env
  | .neg a => a.Uniform env
  | .bin op a b => a.Uniform env ∧ b.Uniform env ∧ (a.isChain op = true → b.ty env = a.ty env)
  | .call _ args => UniformList env args

/-- the same for every argument -/
def UniformList (env : Grammar.Env F W) : List (Ast F) → Prop
  | [] => True
  | a :: as => a.Uniform env ∧ UniformList env as

end

mutual

/-- Every literal, variable and function has type `t` (arguments of functions are of one type each time, but not necessarily
`t`: they are not looked into). -/
def Ast.AllOf (env : Grammar.Env F W) (t : Ty) : Ast F → Prop
  | .lit v => v.ty = t
  | .var n => ∃ v, env.lookup n = some (v, t)
  | .paren a => a.AllOf env t
  | .neg a => a.AllOf env t
  | .bin _ a b => a.AllOf env t ∧ b.AllOf env t
  | .call n args => (∃ f, env.func n = some f ∧ f.result = t) ∧ AllOfList env args

/-- every argument is of a single type -/
def AllOfList (env : Grammar.Env F W) : List (Ast F) → Prop
  | [] => True
  | a :: as => (∃ t, a.AllOf env t) ∧ AllOfList env as

end

mutual

/-- Every variable and function is known and every function has the right number of arguments. -/
def Ast.Known (env : Grammar.Env F W) : Ast F → Prop
  | .lit _ => True
  | .var n => (env.lookup n).isSome
  | .paren a => a.Known env
  | .neg a => a.Known env
  | .bin _ a b => a.Known env ∧ b.Known env
  | .call n args => (∃ f, env.func n = some f ∧ f.params.length = args.length) ∧ KnownList env args

/-- the same for every argument -/
def KnownList (env : Grammar.Env F W) : List (Ast F) → Prop
  | [] => True
  | a :: as => a.Known env ∧ KnownList env as

end

/-- Variables hold values of the type the environment says. -/
def Env.Typed (env : Grammar.Env F W) (σ : State F W) : Prop :=
  ∀ n v t, env.lookup n = some (v, t) → (σ.value v).ty = t

mutual

/-- The external values an expression refers to. -/
def externals : Expr F W → List ℕ
  | .value _ => []
  | .ref _ _ => []
  | .ext _ x => [x]
  | .unary _ e => externals e
  | .binary _ es => externalsTerms es
  | .cast _ e => externals e
  | .call _ args => externalsArgs args

/-- those of a list of operands -/
def externalsTerms : Terms F W → List ℕ
  | .nil => []
  | .cons _ e es => externals e ++ externalsTerms es

/-- those of a list of arguments -/
def externalsArgs : Args F W → List ℕ
  | .nil => []
  | .cons e es => externals e ++ externalsArgs es

end

/-- The arguments of a function call in the order they are written. -/
def argumentsOf : Grammar.ExprList F → List (Grammar.Expression F)
  | .snoc a b => argumentsOf a ++ [b]
  | .one a => [a]

end Schnek.Spec
