import Verif.Model.Array
import Verif.Spec.Range

/-!
# Specification vocabulary for array arithmetic and output
-/

namespace Schnek.Spec

open Arrays

variable {F : Type} {n : ℕ}

/-- The mathematical result of an operation on two integers; division rounds towards zero. -/
def exact : BinOp → ℤ → ℤ → ℤ
  | .add, a, b => a + b
  | .sub, a, b => a - b
  | .mul, a, b => a * b
  | .div, a, b => a.tdiv b

/-- An integer as a value of type `int` (32 bits), which is undefined if it does not fit. -/
def asInt (a : ℤ) : Option (Val F) := if -2147483648 ≤ a ∧ a ≤ 2147483647 then some (.int a) else none

/-- The operation on two `double`s. -/
def dblArith (O : Ops F) (op : BinOp) (a b : F) : Val F :=
  .dbl (match op with
    | .add => O.add a b
    | .sub => O.sub a b
    | .mul => O.mul a b
    | .div => O.div a b)

/-- A C++ arithmetic operation on two numbers: on `int`s if both are, otherwise on `double`s. -/
def arith (O : Ops F) (op : BinOp) : Val F → Val F → Option (Val F)
  | .int a, .int b => if op = .div ∧ b = 0 then none else asInt (exact op a b)
  | .int a, .dbl b => some (dblArith O op (O.ofInt a) b)
  | .dbl a, .int b => some (dblArith O op a (O.ofInt b))
  | .dbl a, .dbl b => some (dblArith O op a b)

/-- `+x`, `-x` in C++ -/
def arithUn (O : Ops F) (op : UnOp) (x : Val F) : Option (Val F) :=
  match op, x with
  | .plus, x => some x
  | .minus, .int a => asInt (-a)
  | .minus, .dbl a => some (.dbl (O.neg a))

/-- `w` is the number `v`, converted to type `T`. -/
def Converted (O : Ops F) (T : Ty) (v w : Val F) : Prop :=
  (v.ty = T ∧ w = v) ∨ (T = .dbl ∧ ∃ i, v = .int i ∧ w = .dbl (O.ofInt i)) ∨
    (T = .int ∧ ∃ d i, v = .dbl d ∧ O.toInt d = some i ∧ w = .int i)

/-- Component `i` of an expression: the expression evaluated for component `i` of each array. -/
def component (O : Ops F) (m : Memory F n) (i : Fin n) : Term F → Option (Val F)
  | .arr x => some (m.data x i)
  | .scal v => some v
  | .un op e => (component O m i e).bind (arithUn O op)
  | .bin op a b => (component O m i a).bind fun x => (component O m i b).bind fun y => arith O op x y

/-- Arrays hold elements of their type. -/
def WellTyped (m : Memory F n) : Prop := ∀ x i, (m.data x i).ty = m.ty x

/-- All arrays and numbers in the expression are of type `T`. -/
def Uniform (m : Memory F n) (T : Ty) : Term F → Prop
  | .arr x => m.ty x = T
  | .scal v => v.ty = T
  | .un _ e => Uniform m T e
  | .bin _ a b => Uniform m T a ∧ Uniform m T b

/-- `m'` is `m` with the components of array `x` replaced by the results of `f`, converted to the type of the array. -/
def Replaced (O : Ops F) (m m' : Memory F n) (x : ℕ) (f : Fin n → Option (Val F)) : Prop :=
  m'.ty = m.ty ∧ (∀ i, ∃ v, f i = some v ∧ Converted O (m.ty x) v (m'.data x i)) ∧ ∀ y, y ≠ x → m'.data y = m.data y

/-- What follows the element at `p` in the output of a grid: a space within a row; at the end of a row a newline, except for rank 1;
at the end of a two-dimensional slice another one, for rank 3 and above. -/
def separator {T : Type} (hi p : Fin (n + 1) → ℤ) : List (Piece T) :=
  if p 0 < hi 0 then [.space]
  else (if 1 ≤ n then [.newline] else []) ++ (if 2 ≤ n ∧ ∀ i : Fin (n + 1), i.1 = 1 → p i = hi i then [.newline] else [])

end Schnek.Spec
