import Mathlib.Data.Nat.Notation

/-!
# Model of the lists of types

`src/generic/typelist.hpp`, `src/typetools.hpp`. Types are elements of any set; `none` is a program that the compiler rejects. Template
instantiation chooses the most specialised definition that matches, which is written as the order of cases here.
-/

namespace Schnek

namespace TypeList

variable {T : Type}

/-- `internal::TypeListGet<n, Types...>::type`: typelist.hpp 39-49. There is no definition for an empty list. -/
def getType : ℕ → List T → Option T
  | 0, t :: _ => some t
  | n + 1, _ :: ts => getType n ts
  | _, [] => none

/-- `internal::TypeListGet<n, Types...>::value`: typelist.hpp 39-49 -/
def getValue : ℕ → List T → Option ℕ
  | 0, _ :: _ => some 1
  | n + 1, _ :: ts => (getValue n ts).map (· + 1)
  | _, [] => none

/-- `TypeList<Types...>::size`: typelist.hpp 64 -/
def size (ts : List T) : ℕ := ts.length

/-- `TypeList<Types...>::get<n>::type`: typelist.hpp 72-77 -/
def get (ts : List T) (n : ℕ) : Option T := if n < size ts then getType n ts else none

/-- the older lists, `Typelist<Head, Tail>` and `NullType`: typetools.hpp 33, 66-73; the tail can be any type -/
inductive Old (T : Type)
  | null
  | cons (head : T) (tail : Old T)
  | other (t : T)

/-- `TypeAtNonStrict<TList, index, DefaultType>::Result`: typetools.hpp 75-94. `index` is an `unsigned int`; the definition for index 0 is
the more specialised one, so that it never becomes smaller than 0. -/
def atNonStrict (dflt : T) : Old T → ℕ → Option T
  | .cons h _, 0 => some h
  | .null, _ => some dflt
  | .cons _ t, n + 1 => atNonStrict dflt t n
  | .other _, _ => none

/-- `TYPELIST_0`, `TYPELIST_1`, `TYPELIST_2`: typetools.hpp 98-100; here for any number of types -/
def ofList : List T → Old T
  | [] => .null
  | t :: ts => .cons t (ofList ts)

end TypeList

end Schnek
