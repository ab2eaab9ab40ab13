import Mathlib.Data.Fintype.Basic
import Mathlib.Data.List.Basic

/-!
# Specification vocabulary for boxes of integer points

Independent of the model: only `Fin n → ℤ`.
-/

namespace Schnek.Spec

variable {n : ℕ}

/-- `p` lies in the closed box with corners `lo` and `hi`. -/
def InBox (lo hi p : Fin n → ℤ) : Prop := ∀ i, lo i ≤ p i ∧ p i ≤ hi i

/-- Lexicographic order: the first differing component decides (last component varies fastest). -/
def LexLt (p q : Fin n → ℤ) : Prop := ∃ k, (∀ j, j < k → p j = q j) ∧ p k < q k

/-- Reverse lexicographic order: the last differing component decides (first component varies
fastest). -/
def ColexLt (p q : Fin n → ℤ) : Prop := ∃ k, (∀ j, k < j → p j = q j) ∧ p k < q k

/-- `l` lists exactly the elements of `S`, each once, in strictly increasing order `R`. -/
structure Enumerates {α : Type*} (R : α → α → Prop) (S : α → Prop) (l : List α) : Prop where
  /-- in order -/
  sorted : l.Pairwise R
  /-- exactly the elements of `S` -/
  mem_iff : ∀ p, p ∈ l ↔ S p
  /-- each once -/
  nodup : l.Nodup

/-- the number of points per dimension of a box -/
def extent (lo hi : Fin n → ℤ) (i : Fin n) : ℤ := hi i - lo i + 1

end Schnek.Spec
