import Verif.Model.Variables
import Mathlib.Data.Rat.Floor

/-!
# Model of unique ids and random numbers

`src/util/unique.hpp`, `src/variables/variables.cpp`, `src/functions.cpp`
-/

namespace Schnek.Misc

/-- The static counter `Unique<T>::runningId`: unique.hpp 39, 46-47. There is one for each class `T`.
Simplification: no overflow (after 2^63 objects). -/
abbrev Counter := ℤ

/-- `Unique<T>::Unique()`: unique.hpp 42. Returns the id and the new counter. -/
def unique (c : Counter) : ℤ × Counter := (c, c + 1)

section

open Deck

/-- All variables of a program, and the counter of `Unique<Variable>`. -/
structure Heap (F W : Type) where
  vars : List (Variable F W)
  counter : Counter

/-- What a program may do with variables. -/
inductive Call (F W : Type)
  /-- `Variable(value, initialised, readonly)` -/
  | ofValue (value : Val F) (initialised readOnly : Bool)
  /-- `Variable(expression, initialised, readonly)` -/
  | ofExpr (e : Expr F W) (initialised readOnly : Bool)
  /-- `Variable(const Variable&)` with variable number `k` -/
  | copy (k : ℕ)
  /-- variable number `k` = variable number `j` -/
  | assign (k j : ℕ)

variable {F W : Type}

/-- the constructors and the assignment operator: variables.cpp 42-116. Assignments that throw change nothing; variables that do not
exist are ignored. -/
def Heap.step (h : Heap F W) : Call F W → Heap F W
  | .ofValue v i r => let (id, c) := unique h.counter; ⟨h.vars ++ [.ofValue v i r id], c⟩
  | .ofExpr e i r => let (id, c) := unique h.counter; ⟨h.vars ++ [.ofExpr e i r id], c⟩
  | .copy k => match h.vars[k]? with
    | some v => ⟨h.vars ++ [v], h.counter⟩
    | none => h
  | .assign k j => match h.vars[k]?, h.vars[j]? with
    | some a, some b => match a.assign b with
      | some a' => ⟨h.vars.set k a', h.counter⟩
      | none => h
    | _, _ => h

/-- The start of the program: the counter is 0 (unique.hpp 47). -/
def Heap.initial : Heap F W := ⟨[], 0⟩

/-- A run of the program. -/
def Heap.run (l : List (Call F W)) : Heap F W := l.foldl Heap.step .initial

end

/-- Creation of `k` blocks (`class Block : public Unique<Block>`, block.hpp 65; blocks can not be copied, unique.hpp 36): their ids and
the counter of `Unique<Block>`. -/
def createBlocks : ℕ → List ℤ × Counter
  | 0 => ([], 0)
  | k + 1 => let (ids, c) := createBlocks k; let (id, c') := unique c; (ids ++ [id], c')

/-- `drand`: functions.cpp 33-38. `M` is `RAND_MAX`, `r1` and `r2` the results of the two calls of `rand`, `fl` the rounding of the
result of an operation to `double`. (Conversions of `int`s are exact.) -/
def drand (fl : ℚ → ℚ) (M r1 r2 : ℕ) : ℚ := fl (fl (r1 + fl (M * r2)) / fl (M * M))

/-- `irand(range)`: functions.cpp 40-43. -/
def irand (fl : ℚ → ℚ) (M r1 r2 : ℕ) (range : ℤ) : ℤ :=
  let x := fl (drand fl M r1 r2 * range)
  if 0 ≤ x then ⌊x⌋ else ⌈x⌉

end Schnek.Misc
