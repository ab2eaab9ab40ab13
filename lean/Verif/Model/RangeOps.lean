import Verif.Model.Range

/-!
# Model of the operations that change the limits of a range

`src/grid/range.hpp`, `src/grid/array.t`
-/

namespace Schnek.Range

variable {n : ℕ}

/-- what can be passed to a parameter `const T&` of `grow`: a number, or a reference to one of the limits of the range itself, as
returned by `getLo(i)` and `getHi(i)` (range.hpp 84-86) or `getLo()[i]` and `getHi()[i]` -/
inductive Arg (n : ℕ)
  | value (s : ℤ)
  | lo (i : Fin n)
  | hi (i : Fin n)

/-- reading the parameter -/
def Arg.read (r : Range n) : Arg n → ℤ
  | .value s => s
  | .lo i => r.lo i
  | .hi i => r.hi i

/-- `lo[i] -= s; hi[i] += s;`: range.hpp 117-118. The parameter is read twice. -/
def growDim (r : Range n) (i : Fin n) (s : Arg n) : Range n :=
  let r' : Range n := { r with lo := Function.update r.lo i (r.lo i - s.read r) }
  { r' with hi := Function.update r'.hi i (r'.hi i + s.read r') }

/-- `Range::grow(s)`: range.hpp 113-120. Simplification: `int` is ℤ (no overflow). -/
def grow (r : Range n) (s : Arg n) : Range n := (List.finRange n).foldl (fun r i => growDim r i s) r

/-- `Range::grow(d0,d1,...)`: range.hpp 122-278 (the nine overloads for rank 2..10 are all the same code for different rank) -/
def growBy (r : Range n) (d : Fin n → Arg n) : Range n := (List.finRange n).foldl (fun r i => growDim r i (d i)) r

/-- the loops of `Array::projectDim(dim)`: array.t 332-341, `result[i] = data[i]` for `i < dim` and `result[i-1] = data[i]` for
`i > dim` -/
def projectDimArray (a : Idx (n + 1)) (dim : Fin (n + 1)) : Idx n := fun j => if j.1 < dim.1 then a j.castSucc else a j.succ

/-- `Range::projectDim(dim)`: range.hpp 108-111 -/
def projectDim (r : Range (n + 1)) (dim : Fin (n + 1)) : Range n := ⟨projectDimArray r.lo dim, projectDimArray r.hi dim⟩

/-- `Range::project<k>()`: range.hpp 101-106 with `Array::project`, array.t 317-327 -/
def project (r : Range n) (k : ℕ) (h : k ≤ n) : Range k := ⟨fun i => r.lo (i.castLE h), fun i => r.hi (i.castLE h)⟩

end Schnek.Range
