import Verif.Model.Fault
import Verif.Spec.Deck

/-!
# What is wrong with an expression that has no value
-/

namespace Schnek.Spec

open Schnek.Deck

variable {F W : Type}

mutual

/-- the expressions an expression is made of, with itself -/
def parts : Expr F W → List (Expr F W)
  | .value v => [.value v]
  | .ref t v => [.ref t v]
  | .ext t x => [.ext t x]
  | .unary op e => .unary op e :: parts e
  | .binary op es => .binary op es :: partsTerms es
  | .cast t e => .cast t e :: parts e
  | .call f args => .call f args :: partsArgs args

/-- those of a list of operands -/
def partsTerms : Terms F W → List (Expr F W)
  | .nil => []
  | .cons _ e es => parts e ++ partsTerms es

/-- those of a list of arguments -/
def partsArgs : Args F W → List (Expr F W)
  | .nil => []
  | .cons e es => parts e ++ partsArgs es

end

/-- the operands in a list -/
def operands : Terms F W → List (Expr F W)
  | .nil => []
  | .cons _ e es => e :: operands es

/-- All operands of an operator have one type: what the types of C++ (`BinaryOp<oper, vtype>`) ensure. -/
def SameTypes (e : Expr F W) : Prop :=
  ∀ op es, .binary op es ∈ parts e → ∃ t, operands es ≠ [] ∧ ∀ s ∈ operands es, s.ty = t

/-- what fits into an `int` -/
def InInt (i : ℤ) : Prop := -2147483648 ≤ i ∧ i ≤ 2147483647

/-- The operation on two integers is not defined. -/
def UndefinedInt (O : FloatOps F) : BinOp → ℤ → ℤ → Prop
  | .add, a, b => ¬ InInt (a + b)
  | .sub, a, b => ¬ InInt (a - b)
  | .mul, a, b => ¬ InInt (a * b)
  | .div, a, b => b = 0 ∨ ¬ InInt (a.tdiv b)
  | .pow, a, b => O.powInt a b = none

/-- A part of the expression that itself, with the values of its own parts, does what the fault says. -/
def Reason (O : FloatOps F) (σ : State F W) (e : Expr F W) : Fault → Prop
  | .typeCast => ∃ t s text, .cast t s ∈ parts e ∧ s.eval O σ = some (.str text) ∧
      (t = .int ∧ O.readInt text = none ∨ t = .float ∧ O.readFloat text = none)
  | .function => ∃ f args vs, .call f args ∈ parts e ∧ args.eval O σ = some vs ∧ f.call σ.world vs = none
  | .undefined =>
      (∃ s i, .unary .neg s ∈ parts e ∧ s.eval O σ = some (.int i) ∧ ¬ InInt (-i)) ∨
      (∃ s x, .cast .int s ∈ parts e ∧ s.eval O σ = some (.float x) ∧ O.toInt x = none) ∨
      ∃ op before pos s after a b, .binary op (Terms.append before (.cons pos s after)) ∈ parts e ∧
        (Expr.binary op before).eval O σ = some (.int a) ∧ s.eval O σ = some (.int b) ∧
        UndefinedInt O (if pos then op.positive else op.negative) a b
  | .badGet => ∃ s ∈ parts e, (∃ t v, s = .ref t v ∧ (σ.value v).ty ≠ t) ∨ (∃ t x, s = .ext t x ∧ (σ.ext x).ty ≠ t)

end Schnek.Spec
