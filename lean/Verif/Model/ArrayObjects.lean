import Verif.Model.Storage

/-!
# Model of the objects of class `schnek::Array` and their checking policies

`src/grid/array.hpp`, `src/grid/array.t`, `src/grid/arraycheck.hpp`

Model/Array.lean is about the values of expressions; there every index is in the array. Here it is about access to the elements of arrays,
with any index, and about the functions that make or fill an array. An element that has not been given a value is `none`.

Simplifications: the arithmetic of the elements is that of a type `T` (for `int` without overflow). Copies made by the compiler (arrays of
the same type) are modelled like those between arrays of different policies, one element after the other; according to the standard the
elements must have values in both cases. Indices are of type `size_t`, a negative `int` is converted modulo 2^64.
-/

namespace Schnek.ArrayObj

variable {T : Type}

/-- why a program does not go on -/
inductive Err
  /-- a failed assertion -/
  | stop
  /-- access outside of an array, undefined behaviour -/
  | outside
  /-- use of an element without value, undefined behaviour -/
  | noValue
  /-- there is no such array, or its length is wrong (the program does not compile) -/
  | invalid
deriving DecidableEq

/-- `Array<T, Length, CheckingPolicy>`: array.hpp 50-65. `checked`: the policy is `ArrayAssertArgCheck`, else `ArrayNoArgCheck`. -/
structure Arr (T : Type) where
  checked : Bool
  data : List (Option T)
deriving DecidableEq

/-- `check`: arraycheck.hpp 43-49 and 54-62 -/
def Arr.check (a : Arr T) (pos : Word) : Except Err Unit :=
  if a.checked then (if pos.val < a.data.length then .ok () else .error .stop) else .ok ()

/-- `data[pos]` as an lvalue -/
def Arr.element (a : Arr T) (pos : ℕ) : Except Err ℕ := if pos < a.data.length then .ok pos else .error .outside

/-- `at(pos)`, `operator[](pos)`, the result is a reference: array.t 188-194, 205-209 -/
def Arr.at' (a : Arr T) (pos : Word) : Except Err ℕ := do
  a.check pos
  a.element pos.val

/-- the value of an element -/
def Arr.load (a : Arr T) (i : ℕ) : Except Err T :=
  match a.data[i]? with
  | some (some v) => .ok v
  | some none => .error .noValue
  | none => .error .outside

/-- `at(pos)`, `operator[](pos)` of a constant array, the result is a value: array.t 196-202, 212-216 -/
def Arr.get (a : Arr T) (pos : Word) : Except Err T := do
  let i ← a.at' pos
  a.load i

/-- `a[pos] = v` -/
def Arr.set (a : Arr T) (pos : Word) (v : T) : Except Err (Arr T) := do
  let i ← a.at' pos
  return { a with data := a.data.set i (some v) }

/-- `data[i] = v` in a member function -/
def Arr.put (a : Arr T) (i : ℕ) (v : T) : Except Err (Arr T) := do
  let i ← a.element i
  return { a with data := a.data.set i (some v) }

/-- default constructor: array.t 33-35 -/
def Arr.new (checked : Bool) (n : ℕ) : Arr T := ⟨checked, List.replicate n none⟩

/-- the constructor with one value: array.t 51-55 -/
def Arr.ofValue (checked : Bool) (n : ℕ) (v : T) : Except Err (Arr T) :=
  (List.range n).foldlM (fun a i => a.put i v) (Arr.new checked n)

/-- the constructors with two to ten values: array.t 57-186 -/
def Arr.ofValues (checked : Bool) (vs : List T) : Except Err (Arr T) :=
  if 2 ≤ vs.length ∧ vs.length ≤ 10 then vs.zipIdx.foldlM (fun a x => a.put x.2 x.1) (Arr.new checked vs.length) else .error .invalid

/-- the constructor from an array with another policy: array.t 37-43 -/
def Arr.convert (b : Arr T) (checked : Bool) : Except Err (Arr T) :=
  (List.range b.data.length).foldlM (fun (a : Arr T) (i : ℕ) => do a.put i (← b.get (i : Word))) (Arr.new checked b.data.length)

/-- `project<k>()`: array.t 317-327. The right hand side is evaluated first. -/
def Arr.project (a : Arr T) (k : ℕ) : Except Err (Arr T) :=
  if k ≤ a.data.length then (List.range k).foldlM (fun (r : Arr T) (i : ℕ) => do r.set (i : Word) (← a.load i)) (Arr.new a.checked k) else .error .invalid

/-- `projectDim(dim)`: array.t 329-342 -/
def Arr.projectDim (a : Arr T) (dim : Word) : Except Err (Arr T) :=
  if a.data.length = 0 then .error .invalid
  else do
    let r ← (List.range dim.val).foldlM (fun (r : Arr T) (i : ℕ) => do r.set (i : Word) (← a.load i)) (Arr.new a.checked (a.data.length - 1))
    (List.range' (dim + 1).val (a.data.length - (dim + 1).val)).foldlM (fun (r : Arr T) (i : ℕ) => do r.set ((i - 1 : ℕ) : Word) (← a.load i)) r

/-- `clear()`, `fill(value)`: array.t 301-315 -/
def Arr.fill (a : Arr T) (v : T) : Except Err (Arr T) := (List.range a.data.length).foldlM (fun a i => a.put i v) a

/-- the loops of `product()`, `sum()` and `sqr()`: array.t 358-380 -/
def Arr.fold (a : Arr T) (f : T → T → T) (x : T) : Except Err T :=
  (List.range a.data.length).foldlM (fun (s : T) (i : ℕ) => do return f s (← a.get (i : Word))) x

/-- The arrays of a program, in the order in which they were made, and the values it has seen. -/
structure World (T : Type) where
  arrays : List (Arr T)
  out : List T

/-- the array with this number -/
def World.arr (w : World T) (x : ℕ) : Except Err (Arr T) :=
  match w.arrays[x]? with
  | some a => .ok a
  | none => .error .invalid

/-- a change of one array -/
def World.update (w : World T) (x : ℕ) (a : Arr T) : World T := { w with arrays := w.arrays.set x a }

/-- a new array -/
def World.add (w : World T) (a : Arr T) : World T := { w with arrays := w.arrays ++ [a] }

/-- a value the program sees -/
def World.see (w : World T) (v : T) : World T := { w with out := w.out ++ [v] }

/-- `fill(y[pos])`: array.t 309-315; the argument is a reference that is read in each round. -/
def World.fillWith (w : World T) (x y i : ℕ) : Except Err (World T) := do
  let a ← w.arr x
  (List.range a.data.length).foldlM (fun (w : World T) (j : ℕ) => do
    let b ← w.arr y
    let v ← b.load i
    let a ← w.arr x
    return w.update x (← a.put j v)) w

/-- `x = y`: array.t 218-225 -/
def World.assign (w : World T) (x y : ℕ) : Except Err (World T) := do
  let a ← w.arr x
  let b ← w.arr y
  if a.data.length ≠ b.data.length then .error .invalid
  else (List.range a.data.length).foldlM (fun (w : World T) (i : ℕ) => do
    let b ← w.arr y
    let v ← b.get (i : Word)
    let a ← w.arr x
    return w.update x (← a.put i v)) w

/-- what a program can do with arrays -/
inductive Op (T : Type)
  /-- `Array<T, n> a;` -/
  | new (checked : Bool) (n : Word)
  /-- `Array<T, n> a(v);` -/
  | ofValue (checked : Bool) (n : Word) (v : T)
  /-- `Array<T, n> a(v0, ..., vk);` -/
  | ofValues (checked : Bool) (vs : List T)
  /-- `Array<T, n> a(x);` -/
  | copy (checked : Bool) (x : ℕ)
  /-- `x = y;` -/
  | assign (x y : ℕ)
  /-- the value `x[pos]` -/
  | get (x : ℕ) (pos : Word)
  /-- `x[pos] = v;` -/
  | set (x : ℕ) (pos : Word) (v : T)
  /-- `x[pos] = y[pos'];` -/
  | move (x : ℕ) (pos : Word) (y : ℕ) (pos' : Word)
  /-- `x.fill(v);` -/
  | fill (x : ℕ) (v : T)
  /-- `x.fill(y[pos]);` -/
  | fillWith (x y : ℕ) (pos : Word)
  /-- `x.project<k>()` -/
  | project (x : ℕ) (k : ℕ)
  /-- `x.projectDim(dim)` -/
  | projectDim (x : ℕ) (dim : Word)
  /-- `x.sum()`, `x.product()`, `x.sqr()` -/
  | fold (x : ℕ) (f : T → T → T) (init : T)

/-- one step of a program -/
def step (w : World T) : Op T → Except Err (World T)
  | .new c n => .ok (w.add (Arr.new c n.val))
  | .ofValue c n v => do return w.add (← Arr.ofValue c n.val v)
  | .ofValues c vs => do return w.add (← Arr.ofValues c vs)
  | .copy c x => do return w.add (← (← w.arr x).convert c)
  | .assign x y => w.assign x y
  | .get x pos => do return w.see (← (← w.arr x).get pos)
  | .set x pos v => do return w.update x (← (← w.arr x).set pos v)
  | .move x pos y pos' => do
    let v ← (← w.arr y).get pos'
    return w.update x (← (← w.arr x).set pos v)
  | .fill x v => do return w.update x (← (← w.arr x).fill v)
  | .fillWith x y pos => do w.fillWith x y (← (← w.arr y).at' pos)
  | .project x k => do return w.add (← (← w.arr x).project k)
  | .projectDim x dim => do return w.add (← (← w.arr x).projectDim dim)
  | .fold x f init => do return w.see (← (← w.arr x).fold f init)

/-- a program -/
def run (w : World T) (p : List (Op T)) : Except Err (World T) := p.foldlM step w

end Schnek.ArrayObj
