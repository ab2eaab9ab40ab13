import Init.Data.List.SplitOn.Lemmas

/-!
# Reading a text word by word
-/

namespace Schnek.Spec.GridText

/-- The words of a text, as `std::istream >> std::string` extracts them one after the other: what is left between whitespace. -/
def words (s : List Char) : List (List Char) := (s.splitOnP Char.isWhitespace).filter (· ≠ [])

/-- a text that is one word -/
def IsWord (w : List Char) : Prop := w ≠ [] ∧ ∀ c ∈ w, c.isWhitespace = false

example : words " 12 3\n\n-4 5\n".toList = ["12".toList, "3".toList, "-4".toList, "5".toList] := by decide +kernel

end Schnek.Spec.GridText
