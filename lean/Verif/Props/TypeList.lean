import Verif.Model.TypeList
import Mathlib.Tactic.Common

/-!
# Lists of types (C144)
-/

namespace Schnek.Props

open TypeList

variable {T : Type}

/-- C144: `TypeList<Types...>::get<n>::type` is the `n`-th of the types, counting from 0, and any other `n` is rejected by the compiler.
(`ts[n]?` is the `n`-th element of the list `ts`, if there is one.) -/
theorem C144_get (ts : List T) (n : ℕ) : get ts n = ts[n]? := by
  have key : ∀ (ts : List T) (n : ℕ), getType n ts = ts[n]? := by
    intro ts
    induction ts with
    | nil => intro n; cases n <;> rfl
    | cons t ts ih =>
      intro n
      cases n with
      | zero => rfl
      | succ n => simpa [getType] using ih n
  unfold TypeList.get size
  split
  · exact key ts n
  · rw [List.getElem?_eq_none (by omega)]

/-- C144: `size` is the number of types, and `get` can be used exactly with the numbers below. -/
theorem C144_size (ts : List T) (n : ℕ) : n < size ts ↔ ∃ t, get ts n = some t := by
  rw [C144_get, ← Option.isSome_iff_exists]
  simp [size]

/-- C144: the constant next to the type is the position counted from 1. -/
theorem C144_value (ts : List T) (n : ℕ) : getValue n ts = if n < ts.length then some (n + 1) else none := by
  induction ts generalizing n with
  | nil => cases n <;> rfl
  | cons t ts ih =>
    cases n with
    | zero => rfl
    | succ n =>
      simp only [getValue, ih, List.length_cons, Nat.add_lt_add_iff_right]
      split <;> rfl

/-- C144: `TypeAtNonStrict` is the type at that position, or the default type if the list is shorter. -/
theorem C144_default (ts : List T) (dflt : T) (n : ℕ) : atNonStrict dflt (ofList ts) n = some (ts.getD n dflt) := by
  induction ts generalizing n with
  | nil => cases n <;> rfl
  | cons t ts ih =>
    cases n with
    | zero => rfl
    | succ n => simpa [atNonStrict, ofList] using ih n

/-- testsuite/generic/test_typelist.cpp -/
example : get ["int", "double", "std::string"] 0 = some "int" ∧ get ["int", "double", "std::string"] 1 = some "double" ∧
    get ["int", "double", "std::string"] 2 = some "std::string" ∧ get ["int", "double", "std::string"] 3 = none ∧
    atNonStrict "void" (ofList ["int", "double"]) 5 = some "void" := ⟨rfl, rfl, rfl, rfl, rfl⟩

end Schnek.Props
