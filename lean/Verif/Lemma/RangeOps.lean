import Verif.Model.RangeOps
import Verif.Spec.Range

/-! # Lemmas for the operations that change the limits of a range -/

namespace Schnek.Lemma.RangeOps

open Schnek.Spec

variable {n : ℕ}

theorem foldl_value (d : Idx n) (l : List (Fin n)) (hl : l.Nodup) (r : Range n) :
    l.foldl (fun r i => Range.growDim r i (.value (d i))) r =
      ⟨fun i => if i ∈ l then r.lo i - d i else r.lo i, fun i => if i ∈ l then r.hi i + d i else r.hi i⟩ := by
  induction l generalizing r with
  | nil => simp
  | cons a l ih =>
      obtain ⟨h1, h2⟩ := List.nodup_cons.mp hl
      rw [List.foldl_cons, ih h2]
      simp only [Range.growDim, Range.Arg.read, Range.mk.injEq]
      constructor <;>
      · funext i
        by_cases hi : i = a
        · subst hi
          simp [h1]
        · simp [hi]

theorem growBy_value (r : Range n) (d : Idx n) :
    r.growBy (fun i => .value (d i)) = ⟨fun i => r.lo i - d i, fun i => r.hi i + d i⟩ := by
  unfold Range.growBy
  rw [foldl_value d _ (List.nodup_finRange n)]
  simp

theorem grow_value (r : Range n) (s : ℤ) : r.grow (.value s) = ⟨fun i => r.lo i - s, fun i => r.hi i + s⟩ :=
  growBy_value r fun _ => s

end Schnek.Lemma.RangeOps
