import Verif.Model.Storage
import Mathlib.Algebra.Field.Basic

/-!
# Model of `schnek::Array`, array expressions, vector functions and stream output

`src/grid/array.hpp`, `src/grid/array.t`, `src/grid/arrayexpression.hpp`, `src/functions.hpp`, `src/algo.t`, `src/datastream.t`
-/

namespace Schnek.Arrays

/-- The element types modelled: `int` and `double`. -/
inductive Ty
  | int | dbl
deriving DecidableEq

/-- An element. `F` stands for `double`. -/
inductive Val (F : Type)
  | int (i : ℤ)
  | dbl (x : F)
deriving DecidableEq

/-- the type of an element -/
def Val.ty {F : Type} : Val F → Ty
  | .int _ => .int
  | .dbl _ => .dbl

/-- The arithmetic of `double`, not modelled further. -/
structure Ops (F : Type) where
  neg : F → F
  add : F → F → F
  sub : F → F → F
  mul : F → F → F
  div : F → F → F
  /-- conversion of `int` to `double` -/
  ofInt : ℤ → F
  /-- conversion of `double` to `int`; `none` if it does not fit (undefined behaviour) -/
  toInt : F → Option ℤ

/-- the result of an `int` operation; `none` if it overflows (undefined behaviour) -/
def checkInt (i : ℤ) : Option ℤ := if -2 ^ 31 ≤ i ∧ i < 2 ^ 31 then some i else none

/-- the binary operators for which array operators are defined: arrayexpression.hpp 471-516 -/
inductive BinOp
  | add | sub | mul | div
deriving DecidableEq

/-- the unary operators: arrayexpression.hpp 521-525 -/
inductive UnOp
  | plus | minus
deriving DecidableEq

section

variable {F : Type} (O : Ops F)

/-- implicit conversion between `int` and `double` -/
def convert : Ty → Val F → Option (Val F)
  | .int, .int i => some (.int i)
  | .int, .dbl x => (O.toInt x).map .int
  | .dbl, .int i => some (.dbl (O.ofInt i))
  | .dbl, .dbl x => some (.dbl x)

/-- `x+y`, `x-y`, `x*y`, `x/y` for two `int`s -/
def intOp : BinOp → ℤ → ℤ → Option ℤ
  | .add, a, b => checkInt (a + b)
  | .sub, a, b => checkInt (a - b)
  | .mul, a, b => checkInt (a * b)
  | .div, a, b => if b = 0 then none else checkInt (a.tdiv b)

/-- `x+y`, `x-y`, `x*y`, `x/y` for two `double`s -/
def dblOp : BinOp → F → F → F
  | .add => O.add
  | .sub => O.sub
  | .mul => O.mul
  | .div => O.div

/-- `ArrayOpPlus<T>::apply` ... `ArrayOpDiv<T>::apply`: arrayexpression.hpp 141-179. The arguments are converted to the parameter type
`T` first. -/
def apply (op : BinOp) (T : Ty) (x y : Val F) : Option (Val F) :=
  match convert O T x, convert O T y with
  | some (.int a), some (.int b) => (intOp op a b).map .int
  | some (.dbl a), some (.dbl b) => some (.dbl (dblOp O op a b))
  | _, _ => none

/-- `ArrayOpUnaryPlus<T>::apply`, `ArrayOpUnaryMinus<T>::apply`: arrayexpression.hpp 183-199 -/
def applyUn (op : UnOp) (T : Ty) (x : Val F) : Option (Val F) :=
  match op, convert O T x with
  | .plus, r => r
  | .minus, some (.int a) => (checkInt (-a)).map .int
  | .minus, some (.dbl a) => some (.dbl (O.neg a))
  | .minus, none => none

end

/-- An object of type `ArrayExpression<...,n>`: arrayexpression.hpp 41-137. All parts are held by value, in particular the arrays
(the members `Op`, `A` and `B` are no references, whatever the comments say). -/
inductive Ex (F : Type) (n : ℕ)
  /-- an array of value type `T`: `ArrayExpression<Array<T,n>,n>` -/
  | arr (T : Ty) (a : Fin n → Val F)
  /-- `ArrayConstantExp<T>` -/
  | const (T : Ty) (v : Val F)
  /-- `ArrayUnaryOp<e, op<T>>` -/
  | un (op : UnOp) (T : Ty) (e : Ex F n)
  /-- `ArrayBinaryOp<e1, e2, op<T>>` -/
  | bin (op : BinOp) (T : Ty) (e1 e2 : Ex F n)

namespace Ex

variable {F : Type} {n : ℕ}

/-- `value_type`: arrayexpression.hpp 49, 83, 111, 134 -/
def valueType : Ex F n → Ty
  | arr T _ => T
  | const T _ => T
  | un _ T _ => T
  | bin _ T _ _ => T

/-- `operator[]`: arrayexpression.hpp 67-70, 95, 124-126, 136 -/
def at? (O : Ops F) : Ex F n → Fin n → Option (Val F)
  | arr _ a, i => some (a i)
  | const _ v, _ => some v
  | un op T e, i => (e.at? O i).bind (applyUn O op T)
  | bin op T e1 e2, i => (e1.at? O i).bind fun x => (e2.at? O i).bind fun y => apply O op T x y

end Ex

/-- The operands of an operator, as far as they matter for the choice of the overload. -/
inductive Operand (F : Type) (n : ℕ)
  | arr (T : Ty) (a : Fin n → Val F)
  | expr (e : Ex F n)
  | scal (T : Ty) (v : Val F)

/-- The operator chosen for two operands: arrayexpression.hpp 213-413 with 471-516. `none` if there is none (the program does not
compile) or if no array is involved. -/
def mkBin {F : Type} {n : ℕ} (op : BinOp) : Operand F n → Operand F n → Option (Ex F n)
  -- EXPR_EXPR
  | .expr A, .expr B => some (.bin op A.valueType A B)
  -- ARR_ARR: one template parameter `T` for both
  | .arr T a, .arr T' b => if T = T' then some (.bin op T (.arr T a) (.arr T b)) else none
  -- EXPR_ARR
  | .expr A, .arr T b => some (.bin op T A (.arr T b))
  -- ARR_EXPR
  | .arr T a, .expr B => some (.bin op T (.arr T a) B)
  -- SCAL_EXPR
  | .scal T v, .expr B => some (.bin op T (.const T v) B)
  -- EXPR_SCAL
  | .expr A, .scal T v => some (.bin op T A (.const T v))
  -- SCAL_ARR: one template parameter `T` for both
  | .scal T v, .arr T' b => if T = T' then some (.bin op T (.const T v) (.arr T b)) else none
  -- ARR_SCAL
  | .arr T a, .scal T' v => if T = T' then some (.bin op T (.arr T a) (.const T v)) else none
  | .scal _ _, .scal _ _ => none

/-- The unary operator chosen: arrayexpression.hpp 416-467 with 521-525. `UNARY_EXPR` has template parameters that can not be
deduced, it is never chosen: unary operators can only be applied to arrays. -/
def mkUn {F : Type} {n : ℕ} (op : UnOp) : Operand F n → Option (Ex F n)
  | .arr T a => some (.un op T (.arr T a))
  | _ => none

/-- Arrays of length `n`, by number, with their value types. -/
structure Memory (F : Type) (n : ℕ) where
  ty : ℕ → Ty
  data : ℕ → Fin n → Val F

/-- The expressions a user writes. -/
inductive Term (F : Type)
  | arr (x : ℕ)
  | scal (v : Val F)
  | un (op : UnOp) (e : Term F)
  | bin (op : BinOp) (e1 e2 : Term F)

section

variable {F : Type} {n : ℕ} (O : Ops F)

/-- Construction of the expression object. -/
def build (m : Memory F n) : Term F → Option (Operand F n)
  | .arr x => some (.arr (m.ty x) (m.data x))
  | .scal v => some (.scal v.ty v)
  | .un op e => (build m e).bind fun a => (mkUn op a).map .expr
  | .bin op e1 e2 => (build m e1).bind fun a => (build m e2).bind fun b => (mkBin op a b).map .expr

/-- `data[i] = v` with the conversion to the value type of the array -/
def store (m : Memory F n) (x : ℕ) (i : Fin n) (v : Val F) : Option (Memory F n) :=
  (convert O (m.ty x) v).map fun w => { m with data := fun y j => if y = x ∧ j = i then w else m.data y j }

/-- The loop `for (size_t i=0; i<Length; ++i) data[i] = f(i)`, where `f` may look at the present state of the arrays. -/
def storeLoop (x : ℕ) (f : Memory F n → Fin n → Option (Val F)) : List (Fin n) → Memory F n → Option (Memory F n)
  | [], m => some m
  | i :: l, m => (f m i).bind fun v => (store O m x i v).bind fun m' => storeLoop x f l m'

/-- `x = expr`: arrayexpression.hpp 540-549 -/
def assign (m : Memory F n) (x : ℕ) (e : Ex F n) : Option (Memory F n) :=
  storeLoop O x (fun _ i => e.at? O i) (List.finRange n) m

/-- The type in which an operation on values of these types takes place: the usual arithmetic conversions of C++. -/
def promote : Ty → Ty → Ty
  | .int, .int => .int
  | _, _ => .dbl

/-- `x += expr`, `x -= expr`, `x *= expr`, `x /= expr`: arrayexpression.hpp 551-585. `data[i] += expr[i]` is a C++ operation on
numbers, carried out after the usual arithmetic conversions. -/
def opAssign (op : BinOp) (m : Memory F n) (x : ℕ) (e : Ex F n) : Option (Memory F n) :=
  storeLoop O x
    (fun m i => (e.at? O i).bind fun v => apply O op (promote (m.data x i).ty v.ty) (m.data x i) v) (List.finRange n) m

/-- `x += y` etc. for an array `y`, which may be `x` itself: array.t 227-261 -/
def opAssignArray (op : BinOp) (m : Memory F n) (x y : ℕ) : Option (Memory F n) :=
  storeLoop O x (fun m i => apply O op (promote (m.data x i).ty (m.data y i).ty) (m.data x i) (m.data y i)) (List.finRange n) m

/-- `x += v` etc. for a number `v`, passed by value: array.t 263-297 -/
def opAssignScalar (op : BinOp) (m : Memory F n) (x : ℕ) (v : Val F) : Option (Memory F n) :=
  storeLoop O x (fun m i => apply O op (promote (m.data x i).ty v.ty) (m.data x i) v) (List.finRange n) m

/-- `x = y` for an array `y` of any type: array.t 218-225 (and the assignment generated by the compiler) -/
def assignArray (m : Memory F n) (x y : ℕ) : Option (Memory F n) :=
  storeLoop O x (fun m i => some (m.data y i)) (List.finRange n) m

end

section

variable {T : Type} {n : ℕ}

/-- `operator==`: array.t 386-398; `ne` is `!=` of the elements -/
def eq (ne : T → T → Bool) (a b : Fin n → T) : Bool := go (List.finRange n)
where
  /-- the loop -/
  go : List (Fin n) → Bool
    | [] => true
    | i :: l => if ne (a i) (b i) then false else go l

/-- `operator!=`: array.t 400-412 -/
def ne (ne' : T → T → Bool) (a b : Fin n → T) : Bool := go (List.finRange n)
where
  /-- the loop -/
  go : List (Fin n) → Bool
    | [] => false
    | i :: l => if ne' (a i) (b i) then true else go l

/-- `operator<`: array.t 414-426; `ge` is `>=` of the elements -/
def lt (ge : T → T → Bool) (a b : Fin n → T) : Bool := go (List.finRange n)
where
  /-- the loop -/
  go : List (Fin n) → Bool
    | [] => true
    | i :: l => if ge (a i) (b i) then false else go l

/-- `operator<=`: array.t 428-440; `gt` is `>` of the elements -/
def le (gt : T → T → Bool) (a b : Fin n → T) : Bool := go (List.finRange n)
where
  /-- the loop -/
  go : List (Fin n) → Bool
    | [] => true
    | i :: l => if gt (a i) (b i) then false else go l

/-- `Array::sum`: array.t 366-372 -/
def sum [Zero T] [Add T] (a : Fin n → T) : T := (List.finRange n).foldl (fun s i => s + a i) 0

/-- `Array::product`: array.t 358-364 -/
def product [One T] [Mul T] (a : Fin n → T) : T := (List.finRange n).foldl (fun p i => p * a i) 1

/-- `Array::sqr`: array.t 374-380 -/
def sqr [Zero T] [Add T] [Mul T] (a : Fin n → T) : T := (List.finRange n).foldl (fun s i => s + a i * a i) 0

/-- `Array::project<k>`: array.t 317-327 -/
def project (a : Fin n → T) (k : ℕ) (h : k ≤ n) : Fin k → T := fun i => a ⟨i, lt_of_lt_of_le i.2 h⟩

/-- `Array::projectDim`: array.t 329-342. The result starts out uninitialised (`junk`); the two loops are given by what they
store: component `i < dim` from the first, component `i - 1` for `i > dim` from the second. -/
def projectDim (junk : Fin n → T) (a : Fin (n + 1) → T) (dim : ℕ) : Fin n → T := fun j =>
  if h : j.1 < dim then a ⟨j, by omega⟩ else if dim ≤ j.1 then a ⟨j + 1, by omega⟩ else junk j

end

section

variable {K : Type}

/-- `result[i] = v` for arrays in memory -/
def put (m : ℕ → Fin 3 → K) (r : ℕ) (i : Fin 3) (v : K) : ℕ → Fin 3 → K := fun y j => if y = r ∧ j = i then v else m y j

/-- `crossProduct(result, a, b)`: functions.hpp 48-54. The arguments are references, so `result` may be `a` or `b`. -/
def crossProduct [Mul K] [Sub K] (m : ℕ → Fin 3 → K) (r a b : ℕ) : ℕ → Fin 3 → K :=
  let m := put m r 0 (m a 1 * m b 2 - m a 2 * m b 1)
  let m := put m r 1 (m a 2 * m b 0 - m a 0 * m b 2)
  put m r 2 (m a 0 * m b 1 - m a 1 * m b 0)

/-- The loop of `mean`: algo.t 37-41 -/
def meanLoop [Add K] : List K → K × ℕ → K × ℕ
  | [], s => s
  | x :: l, (m, cnt) => meanLoop l (m + x, cnt + 1)

/-- `mean(begin, end)`: algo.t 27-44, for the values met. `none` for no values (0/0). Simplification: exact arithmetic. -/
def mean [Field K] (l : List K) : Option K :=
  let s := meanLoop l (0, 0)
  if s.2 = 0 then none else some (s.1 / s.2)

end

/-! ## Stream output -/

/-- What is written. The text of the values is not modelled. -/
inductive Piece (T : Type)
  | val (x : T)
  | space
  | newline
deriving DecidableEq

/-- `operator<<` for arrays: datastream.t 27-38 -/
def streamArray {T : Type} {n : ℕ} (a : Fin n → T) : List (Piece T) :=
  match List.finRange n with
  | [] => []
  | i :: l => .val (a i) :: l.flatMap fun j => [.space, .val (a j)]

section

variable {T : Type} {n : ℕ}

/-- The innermost loop over the first index: datastream.t 55-56, 79-80, 107-108, 139-140, 174-175 -/
def row (r : Range (n + 1)) (g : Idx (n + 1) → T) (p : Idx (n + 1)) : List (Piece T) :=
  loopLE (r.lo 0 + 1) (r.hi 0) (fun x out => out ++ [.space, .val (g (Function.update p 0 x))])
    [.val (g (Function.update p 0 (r.lo 0)))]

/-- The loops over the index `d` and the ones below: datastream.t 77-82, 103-112, 133-145, 166-181. A newline is written at the end
of each round of the loops over the second and the third index, but not of further ones. -/
def rows (r : Range (n + 1)) (g : Idx (n + 1) → T) : (d : ℕ) → d < n + 1 → Idx (n + 1) → List (Piece T)
  | 0, _, p => row r g p
  | d + 1, h, p =>
    loopLE (r.lo ⟨d + 1, h⟩) (r.hi ⟨d + 1, h⟩)
      (fun x out => out ++ rows r g d (Nat.lt_of_succ_lt h) (Function.update p ⟨d + 1, h⟩ x) ++ (if d < 2 then [.newline] else [])) []

/-- `operator<<` for grids: datastream.t 40-184 (five overloads, for rank 1 to 5). `g` gives the elements of the grid. -/
def streamGrid (r : Range (n + 1)) (g : Idx (n + 1) → T) : List (Piece T) :=
  if le (fun a b : ℤ => decide (a > b)) r.lo r.hi then rows r g n (Nat.lt_succ_self n) r.lo else []

end

end Schnek.Arrays
