import Verif.Model.Expression

/-!
# Why an expression has no value

The evaluation of expressions once more, with exceptions and undefined behaviour told apart: `Expr.eval` of Expression.lean has the one
result `none` for all of them.
-/

namespace Schnek.Deck

/-- How evaluating an expression can end without a value. -/
inductive Fault
  /-- `TypeCastException`: expression.hpp 79-83, 416-424 -/
  | typeCast
  /-- a registered function throws -/
  | function
  /-- undefined behaviour: overflow of `int`, integer division by zero, conversion of a `double` that is out of the range of `int` -/
  | undefined
  /-- `boost::bad_get`, because a variable holds another type: expression.hpp 172. Also stands for what the types of C++ exclude: operands
  of different types and a `BinaryOp` without operands. -/
  | badGet
deriving DecidableEq

section

variable {F : Type} (O : FloatOps F)

/-- a result that may be missing for this reason -/
def orFault {α : Type} (f : Fault) : Option α → Except Fault α
  | none => .error f
  | some a => .ok a

/-- `OperatorId::eval`, `OperatorNeg::eval`: operators.hpp 127-138, 214-215 -/
def UnOp.tryEval : UnOp → Val F → Except Fault (Val F)
  | .id, v => .ok v
  | .neg, .int i => (orFault .undefined (checkInt (-i))).map .int
  | .neg, .float x => .ok (.float (O.neg x))
  | .neg, .str _ => .ok (.str "")

/-- `OperatorAdd::eval` etc.: operators.hpp 147-180, 220-230. `pow` of integers is computed in `double` and converted. -/
def BinOp.tryEval : BinOp → Val F → Val F → Except Fault (Val F)
  | .add, .int a, .int b => (orFault .undefined (checkInt (a + b))).map .int
  | .sub, .int a, .int b => (orFault .undefined (checkInt (a - b))).map .int
  | .mul, .int a, .int b => (orFault .undefined (checkInt (a * b))).map .int
  | .div, .int a, .int b => if b = 0 then .error .undefined else (orFault .undefined (checkInt (a.tdiv b))).map .int
  | .pow, .int a, .int b => (orFault .undefined (O.powInt a b)).map .int
  | .add, .float a, .float b => .ok (.float (O.add a b))
  | .sub, .float a, .float b => .ok (.float (O.sub a b))
  | .mul, .float a, .float b => .ok (.float (O.mul a b))
  | .div, .float a, .float b => .ok (.float (O.div a b))
  | .pow, .float a, .float b => .ok (.float (O.pow a b))
  | .add, .str a, .str b => .ok (.str (a ++ b))
  | .sub, .str _, .str _ => .ok (.str "")
  | .mul, .str _, .str _ => .ok (.str "")
  | .div, .str _, .str _ => .ok (.str "")
  | .pow, .str _, .str _ => .ok (.str "")
  | _, _, _ => .error .badGet

/-- `TypecastOp::eval`: expression.hpp 353-424. `bad_lexical_cast` is turned into `TypeCastException`. -/
def tryConvert : Ty → Val F → Except Fault (Val F)
  | .int, .int i => .ok (.int i)
  | .int, .float x => (orFault .undefined (O.toInt x)).map .int
  | .int, .str s => (orFault .typeCast (O.readInt s)).map .int
  | .float, .int i => .ok (.float (O.ofInt i))
  | .float, .float x => .ok (.float x)
  | .float, .str s => (orFault .typeCast (O.readFloat s)).map .float
  | .str, .int i => .ok (.str (O.showInt i))
  | .str, .float x => .ok (.str (O.showFloat x))
  | .str, .str s => .ok (.str s)

end

variable {F W : Type}

mutual

/-- `eval()`: expression.hpp 137-141, 162-173, 199-203, 225, 416-424, function_expression.hpp 158-162 -/
def Expr.tryEval (O : FloatOps F) (σ : State F W) : Expr F W → Except Fault (Val F)
  | .value v => .ok v
  | .ref t v => if (σ.value v).ty = t then .ok (σ.value v) else .error .badGet
  | .ext t x => if (σ.ext x).ty = t then .ok (σ.ext x) else .error .badGet
  | .unary op e => (e.tryEval O σ).bind (op.tryEval O)
  | .binary op es => es.tryEvalFirst O σ op
  | .cast t e => (e.tryEval O σ).bind (tryConvert O t)
  | .call f args => (args.tryEval O σ).bind fun vs => orFault .function (f.call σ.world vs)

/-- `BinaryOp::eval()`: expression.hpp 314-328; the list is never empty -/
def Terms.tryEvalFirst (O : FloatOps F) (σ : State F W) (op : BinOp) : Terms F W → Except Fault (Val F)
  | .nil => .error .badGet
  | .cons _ e es => (e.tryEval O σ).bind fun v => es.tryEvalRest O σ op v

/-- the loop of `BinaryOp::eval()`: expression.hpp 321-326 -/
def Terms.tryEvalRest (O : FloatOps F) (σ : State F W) (op : BinOp) : Terms F W → Val F → Except Fault (Val F)
  | .nil, val => .ok val
  | .cons pos e es, val => (e.tryEval O σ).bind fun w =>
      ((if pos then op.positive else op.negative).tryEval O val w).bind fun val' => es.tryEvalRest O σ op val'

/-- the arguments of a function, first to last: function_expression.hpp 140-147 -/
def Args.tryEval (O : FloatOps F) (σ : State F W) : Args F W → Except Fault (List (Val F))
  | .nil => .ok []
  | .cons e es => (e.tryEval O σ).bind fun v => (es.tryEval O σ).map (v :: ·)

end

end Schnek.Deck
