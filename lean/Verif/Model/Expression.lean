import Mathlib.Data.Int.Basic
import Mathlib.Data.List.Basic

/-!
# Model of `schnek::Expression` and its subclasses

`src/variables/expression.hpp`, `src/variables/operators.hpp`, `src/variables/function_expression.hpp`

A result `none` stands for an exception or for undefined behaviour (overflow of `int`, integer division by zero): there is no
value. Exceptions and undefined behaviour are told apart in Fault.lean.
-/

namespace Schnek.Deck

/-- the alternatives of `ValueVariant`, src/variables/types.hpp 44 -/
inductive Ty
  | int | float | str
deriving DecidableEq, Repr

/-- `ValueVariant`: src/variables/types.hpp 44. `F` stands for `double`. -/
inductive Val (F : Type)
  | int (i : ℤ)
  | float (x : F)
  | str (s : String)
deriving DecidableEq

/-- the alternative held -/
def Val.ty {F : Type} : Val F → Ty
  | .int _ => .int
  | .float _ => .float
  | .str _ => .str

/-- Operations on `double`, conversions and `pow` on `int`, which are not modelled further. -/
structure FloatOps (F : Type) where
  neg : F → F
  add : F → F → F
  sub : F → F → F
  mul : F → F → F
  div : F → F → F
  pow : F → F → F
  /-- `pow(int,int)` converted to `int` -/
  powInt : ℤ → ℤ → Option ℤ
  /-- `static_cast<double>(int)` -/
  ofInt : ℤ → F
  /-- `static_cast<int>(double)` -/
  toInt : F → Option ℤ
  /-- `boost::lexical_cast` -/
  showInt : ℤ → String
  showFloat : F → String
  readInt : String → Option ℤ
  readFloat : String → Option F

/-- result of an `int` operation; `none` if it overflows -/
def checkInt (i : ℤ) : Option ℤ := if -2 ^ 31 ≤ i ∧ i < 2 ^ 31 then some i else none

/-- unary operators used by the grammar: `OperatorId`, `OperatorNeg`, operators.hpp 42-52. (`OperatorInv` is only used by
`negate`, which is never called.) -/
inductive UnOp
  | id | neg
deriving DecidableEq

/-- binary operators: operators.hpp 63-124 -/
inductive BinOp
  | add | sub | mul | div | pow
deriving DecidableEq

namespace BinOp

/-- `isPositive`: operators.hpp 66, 78, 93, 105, 117 -/
def isPositive : BinOp → Bool
  | add => true
  | sub => false
  | mul => true
  | div => false
  | pow => true

/-- `Positive` -/
def positive : BinOp → BinOp
  | add => add
  | sub => add
  | mul => mul
  | div => mul
  | pow => pow

/-- `Negative` -/
def negative : BinOp → BinOp
  | add => sub
  | sub => sub
  | mul => div
  | div => div
  | pow => pow

/-- `Inverted` -/
def inverted : BinOp → BinOp
  | add => sub
  | sub => add
  | mul => div
  | div => mul
  | pow => pow

end BinOp

section

variable {F : Type} (O : FloatOps F)

/-- `OperatorId::eval`, `OperatorNeg::eval`: operators.hpp 127-138, 214-215 -/
def UnOp.eval : UnOp → Val F → Option (Val F)
  | .id, v => some v
  | .neg, .int i => (checkInt (-i)).map .int
  | .neg, .float x => some (.float (O.neg x))
  | .neg, .str _ => some (.str "")

/-- `OperatorAdd::eval` etc.: operators.hpp 147-180, 220-230. Both operands have the same type (`none` otherwise). -/
def BinOp.eval : BinOp → Val F → Val F → Option (Val F)
  | .add, .int a, .int b => (checkInt (a + b)).map .int
  | .sub, .int a, .int b => (checkInt (a - b)).map .int
  | .mul, .int a, .int b => (checkInt (a * b)).map .int
  | .div, .int a, .int b => if b = 0 then none else (checkInt (a.tdiv b)).map .int
  | .pow, .int a, .int b => (O.powInt a b).map .int
  | .add, .float a, .float b => some (.float (O.add a b))
  | .sub, .float a, .float b => some (.float (O.sub a b))
  | .mul, .float a, .float b => some (.float (O.mul a b))
  | .div, .float a, .float b => some (.float (O.div a b))
  | .pow, .float a, .float b => some (.float (O.pow a b))
  | .add, .str a, .str b => some (.str (a ++ b))
  | .sub, .str _, .str _ => some (.str "")
  | .mul, .str _, .str _ => some (.str "")
  | .div, .str _, .str _ => some (.str "")
  | .pow, .str _, .str _ => some (.str "")
  | _, _, _ => none

/-- `TypecastOp::eval` with `StaticCast`, `LexicalCast` or `FastCast`: expression.hpp 353-424. In all uses numbers are converted
by `static_cast` and strings by `lexical_cast`. -/
def convert : Ty → Val F → Option (Val F)
  | .int, .int i => some (.int i)
  | .int, .float x => (O.toInt x).map .int
  | .int, .str s => (O.readInt s).map .int
  | .float, .int i => some (.float (O.ofInt i))
  | .float, .float x => some (.float x)
  | .float, .str s => (O.readFloat s).map .float
  | .str, .int i => some (.str (O.showInt i))
  | .str, .float x => some (.str (O.showFloat x))
  | .str, .str s => some (.str s)

end

/-- A registered function: function_expression.hpp 206-223. `W` is the state of the outside world, on which the functions
registered with `updateAlways` may depend (for example random numbers). -/
structure Func (F W : Type) where
  params : List Ty
  result : Ty
  updateAlways : Bool
  /-- the C++ function; the arguments have the parameter types -/
  call : W → List (Val F) → Option (Val F)
  /-- the meaning of `updateAlways` -/
  pure : updateAlways = false → ∀ w w' args, call w args = call w' args
  /-- the C++ function returns what its type says -/
  typed : ∀ w args v, call w args = some v → v.ty = result

/-- a `pVariable` -/
abbrev Var := ℕ

mutual

/-- The classes derived from `Expression<vtype>`; `Expr.ty` is `vtype`. -/
inductive Expr (F W : Type) : Type
  /-- `Value`: expression.hpp 126-146 -/
  | value (v : Val F)
  /-- `ReferencedValue<t>`: expression.hpp 152-184 -/
  | ref (t : Ty) (v : Var)
  /-- `ExternalValue<t>`: expression.hpp 188-207; `x` stands for the pointer -/
  | ext (t : Ty) (x : ℕ)
  /-- `UnaryOp`: expression.hpp 214-235 -/
  | unary (op : UnOp) (e : Expr F W)
  /-- `BinaryOp<op>` with the list `expressions`: expression.hpp 250-351 -/
  | binary (op : BinOp) (es : Terms F W)
  /-- `TypecastOp<t, ...>`: expression.hpp 403-434 -/
  | cast (t : Ty) (e : Expr F W)
  /-- `FunctionExpression`: function_expression.hpp 63-191 -/
  | call (f : Func F W) (args : Args F W)

/-- `std::list<ExpressionInfo<vtype> >`: expression.hpp 237-243, 262 -/
inductive Terms (F W : Type) : Type
  | nil
  | cons (positive : Bool) (e : Expr F W) (es : Terms F W)

/-- `ExpressionList`: function_expression.hpp 43 -/
inductive Args (F W : Type) : Type
  | nil
  | cons (e : Expr F W) (es : Args F W)

end

variable {F W : Type}

mutual

/-- the template parameter `vtype` -/
def Expr.ty : Expr F W → Ty
  | .value v => v.ty
  | .ref t _ => t
  | .ext t _ => t
  | .unary _ e => e.ty
  | .binary _ es => es.ty
  | .cast t _ => t
  | .call f _ => f.result

/-- the type of the elements of the list (all have the same) -/
def Terms.ty : Terms F W → Ty
  | .nil => .int
  | .cons _ e _ => e.ty

end

/-- What expressions refer to. -/
structure State (F W : Type) where
  /-- `Variable::var` -/
  value : Var → Val F
  /-- `Variable::fixed` -/
  fixed : Var → Bool
  /-- `Variable::getId()` -/
  id : Var → ℤ
  /-- the values external pointers point to -/
  ext : ℕ → Val F
  /-- what the functions registered with `updateAlways` depend on -/
  world : W

mutual

/-- `eval()` -/
def Expr.eval (O : FloatOps F) (σ : State F W) : Expr F W → Option (Val F)
  | .value v => some v
  | .ref t v => if (σ.value v).ty = t then some (σ.value v) else none
  | .ext t x => if (σ.ext x).ty = t then some (σ.ext x) else none
  | .unary op e => (e.eval O σ).bind (op.eval O)
  | .binary op es => es.evalFirst O σ op
  | .cast t e => (e.eval O σ).bind (convert O t)
  | .call f args => (args.eval O σ).bind (f.call σ.world)

/-- `BinaryOp::eval()`: expression.hpp 314-328; the list is never empty -/
def Terms.evalFirst (O : FloatOps F) (σ : State F W) (op : BinOp) : Terms F W → Option (Val F)
  | .nil => none
  | .cons _ e es => (e.eval O σ).bind fun v => es.evalRest O σ op v

/-- the loop of `BinaryOp::eval()`: expression.hpp 321-326 -/
def Terms.evalRest (O : FloatOps F) (σ : State F W) (op : BinOp) : Terms F W → Val F → Option (Val F)
  | .nil, val => some val
  | .cons pos e es, val => (e.eval O σ).bind fun w =>
      ((if pos then op.positive else op.negative).eval O val w).bind fun val' => es.evalRest O σ op val'

/-- the arguments of a function: function_expression.hpp 114-147 -/
def Args.eval (O : FloatOps F) (σ : State F W) : Args F W → Option (List (Val F))
  | .nil => some []
  | .cons e es => (e.eval O σ).bind fun v => (es.eval O σ).map (v :: ·)

end

mutual

/-- `isConstant()`: expression.hpp 143, 175, 206, 228, 331-337, 427; function_expression.hpp 165-176 -/
def Expr.isConstant (σ : State F W) : Expr F W → Bool
  | .value _ => true
  | .ref _ v => σ.fixed v
  | .ext _ _ => false
  | .unary _ e => e.isConstant σ
  | .binary _ es => es.isConstant σ
  | .cast _ e => e.isConstant σ
  | .call f args => !f.updateAlways && args.isConstant σ

/-- loop over the list -/
def Terms.isConstant (σ : State F W) : Terms F W → Bool
  | .nil => true
  | .cons _ e es => e.isConstant σ && es.isConstant σ

/-- loop over the arguments -/
def Args.isConstant (σ : State F W) : Args F W → Bool
  | .nil => true
  | .cons e es => e.isConstant σ && es.isConstant σ

end

mutual

/-- `getDependencies()` (a `std::set`, here a list): expression.hpp 110, 178-183, 231-234, 340-350, 430-433;
function_expression.hpp 179-191 -/
def Expr.deps (σ : State F W) : Expr F W → List ℤ
  | .value _ => []
  | .ref _ v => [σ.id v]
  | .ext _ _ => []
  | .unary _ e => e.deps σ
  | .binary _ es => es.deps σ
  | .cast _ e => e.deps σ
  | .call f args => args.deps σ ++ if f.updateAlways then [-1] else []

/-- loop over the list -/
def Terms.deps (σ : State F W) : Terms F W → List ℤ
  | .nil => []
  | .cons _ e es => e.deps σ ++ es.deps σ

/-- loop over the arguments -/
def Args.deps (σ : State F W) : Args F W → List ℤ
  | .nil => []
  | .cons e es => e.deps σ ++ es.deps σ

end

/-! ## construction -/

/-- `list.insert(list.end(), ...)` -/
def Terms.append : Terms F W → Terms F W → Terms F W
  | .nil, b => b
  | .cons p e es, b => .cons p e (es.append b)

/-- The list spliced in for an operand of `BinaryOp<op>`: the operand's own list if it is a `BinaryOp` of the same operator or of
the inverted operator, otherwise the operand itself: expression.hpp 268-285, 287-310. -/
def Expr.asTerms (op : BinOp) : Expr F W → Terms F W
  | .binary op' es => if op' = op ∨ op' = op.inverted then es else .cons true (.binary op' es) .nil
  | e => .cons true e .nil

/-- `expressions.push_back(ExpressionInfo<vtype>(!it->positive, it->expression)); ++it;`: expression.hpp 290-294 -/
def Terms.flipFirst : Terms F W → Terms F W
  | .nil => .nil
  | .cons p e es => .cons (!p) e es

/-- constructor `BinaryOp<op>(expr1, expr2)`: expression.hpp 264-311 -/
def mkBinary (op : BinOp) (e₁ e₂ : Expr F W) : Expr F W :=
  .binary op ((e₁.asTerms op).append (if op.isPositive then e₂.asTerms op else (e₂.asTerms op).flipFirst))

/-- `TypePromoter`: src/parser/parsertoken.t 33-86 -/
def promote (e₁ e₂ : Expr F W) : Expr F W × Expr F W :=
  match e₁.ty, e₂.ty with
  | .int, .float => (.cast .float e₁, e₂)
  | .float, .int => (e₁, .cast .float e₂)
  | .int, .str => (.cast .str e₁, e₂)
  | .str, .int => (e₁, .cast .str e₂)
  | .float, .str => (.cast .str e₁, e₂)
  | .str, .float => (e₁, .cast .str e₂)
  | _, _ => (e₁, e₂)

/-- `assignBinaryOperator<op>`: parsertoken.t 161-204 -/
def assignBinary (op : BinOp) (e₁ e₂ : Expr F W) : Expr F W :=
  mkBinary op (promote e₁ e₂).1 (promote e₁ e₂).2

/-- `assignUnaryOperator<op>`: parsertoken.t 146-159, 182-191 -/
def assignUnary (op : UnOp) (e : Expr F W) : Expr F W := .unary op e

/-- `ExpressionConverterVisitor<t>`: function_expression.hpp 45-61 -/
def convertArg (t : Ty) (e : Expr F W) : Expr F W := if e.ty = t then e else .cast t e

/-- `makeList`: function_expression.hpp 109-112, 128-138; `none` is `WrongNumberOfArgsException` -/
def makeList : List Ty → List (Expr F W) → Option (Args F W)
  | [], [] => some .nil
  | [], _ :: _ => none
  | _ :: _, [] => none
  | t :: ts, e :: es => (makeList ts es).map (.cons (convertArg t e))

/-- `FunctionRegistry::getExpression`: function_expression.hpp 151-156, 218-222, 240-244; `none` if the function is not
registered or the number of arguments is wrong -/
def getExpression {Name : Type} (reg : Name → Option (Func F W)) (fname : Name) (args : List (Expr F W)) :
    Option (Expr F W) :=
  (reg fname).bind fun f => (makeList f.params args).map (.call f)

end Schnek.Deck
