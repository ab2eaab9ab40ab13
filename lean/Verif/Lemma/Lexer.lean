import Verif.Spec.Lexer

/-! Derivatives of regular expressions and what they say about the longest match. -/

namespace Schnek.Lemma.Lexer

open Schnek.Scanner (Byte)
open Schnek.Spec.Lexer

def nullable : RE → Bool
  | .empty => false
  | .eps => true
  | .cls _ => false
  | .alt r s => nullable r || nullable s
  | .cat r s => nullable r && nullable s
  | .star _ => true

def mkAlt : RE → RE → RE
  | .empty, s => s
  | r, .empty => r
  | r, s => .alt r s

def mkCat : RE → RE → RE
  | .empty, _ => .empty
  | .eps, s => s
  | r, s => .cat r s

def deriv (b : Byte) : RE → RE
  | .empty => .empty
  | .eps => .empty
  | .cls l => if inRanges b l then .eps else .empty
  | .alt r s => mkAlt (deriv b r) (deriv b s)
  | .cat r s => if nullable r then mkAlt (mkCat (deriv b r) s) (deriv b s) else mkCat (deriv b r) s
  | .star r => mkCat (deriv b r) (.star r)

theorem matches_empty {w : List Byte} : ¬ Matches .empty w := by
  intro h; cases h

theorem matches_eps {w : List Byte} : Matches .eps w ↔ w = [] := by
  constructor
  · intro h; cases h; rfl
  · rintro rfl; exact .eps

theorem matches_alt {r s : RE} {w : List Byte} : Matches (.alt r s) w ↔ Matches r w ∨ Matches s w := by
  constructor
  · intro h
    cases h with
    | altL h => exact Or.inl h
    | altR h => exact Or.inr h
  · rintro (h | h)
    · exact .altL h
    · exact .altR h

theorem matches_cat {r s : RE} {w : List Byte} : Matches (.cat r s) w ↔ ∃ u v, w = u ++ v ∧ Matches r u ∧ Matches s v := by
  constructor
  · intro h
    cases h with
    | cat h₁ h₂ => exact ⟨_, _, rfl, h₁, h₂⟩
  · rintro ⟨u, v, rfl, h₁, h₂⟩; exact .cat h₁ h₂

theorem matches_cls {l : List (ℕ × ℕ)} {w : List Byte} : Matches (.cls l) w ↔ ∃ b, w = [b] ∧ inRanges b l = true := by
  constructor
  · intro h
    cases h with
    | cls h => exact ⟨_, rfl, h⟩
  · rintro ⟨b, rfl, h⟩; exact .cls h

theorem matches_mkAlt {r s : RE} {w : List Byte} : Matches (mkAlt r s) w ↔ Matches r w ∨ Matches s w := by
  unfold mkAlt
  split
  · simp [matches_empty]
  · simp [matches_empty]
  · exact matches_alt

theorem matches_mkCat {r s : RE} {w : List Byte} :
    Matches (mkCat r s) w ↔ ∃ u v, w = u ++ v ∧ Matches r u ∧ Matches s v := by
  unfold mkCat
  split
  · simp [matches_empty]
  · simp [matches_eps]
  · exact matches_cat

theorem nullable_iff (r : RE) : nullable r = true ↔ Matches r [] := by
  induction r with
  | empty => simp [nullable, matches_empty]
  | eps => simp [nullable, matches_eps]
  | cls l => simp [nullable, matches_cls]
  | alt r s hr hs => simp [nullable, matches_alt, hr, hs]
  | cat r s hr hs => simp [nullable, matches_cat, hr, hs]
  | star r => simp [nullable, Matches.starNil]

theorem matches_star_cons {r : RE} {b : Byte} {w : List Byte} :
    Matches (.star r) (b :: w) ↔ ∃ u v, w = u ++ v ∧ Matches r (b :: u) ∧ Matches (.star r) v := by
  constructor
  · intro h
    generalize hx : RE.star r = x at h
    generalize hy : b :: w = y at h
    induction h with
    | eps => cases hx
    | cls => cases hx
    | altL => cases hx
    | altR => cases hx
    | cat => cases hx
    | starNil => cases hy
    | @starCons r' v' w' h₁ h₂ _ ih₂ =>
      cases hx
      cases v' with
      | nil => exact ih₂ rfl (by simpa using hy)
      | cons c v'' =>
        simp only [List.cons_append, List.cons.injEq] at hy
        obtain ⟨rfl, rfl⟩ := hy
        exact ⟨v'', w', rfl, h₁, h₂⟩
  · rintro ⟨u, v, rfl, h₁, h₂⟩
    exact Matches.starCons (v := b :: u) h₁ h₂

theorem matches_deriv (b : Byte) (r : RE) (w : List Byte) : Matches (deriv b r) w ↔ Matches r (b :: w) := by
  induction r generalizing w with
  | empty => simp [deriv, matches_empty]
  | eps => simp [deriv, matches_empty, matches_eps]
  | cls l =>
    unfold deriv
    split
    · rename_i h
      rw [matches_eps, matches_cls]
      constructor
      · rintro rfl; exact ⟨b, rfl, h⟩
      · rintro ⟨c, hc, _⟩; simp at hc; exact hc.2
    · rename_i h
      simp only [matches_empty, false_iff]
      intro hm
      obtain ⟨c, hc, hb⟩ := matches_cls.1 hm
      simp only [List.cons.injEq] at hc
      rw [← hc.1] at hb
      exact h hb
  | alt r s hr hs => rw [deriv, matches_mkAlt, matches_alt, hr, hs]
  | cat r s hr hs =>
    have key : (∃ u v, w = u ++ v ∧ Matches (deriv b r) u ∧ Matches s v) ↔
        ∃ u v, w = u ++ v ∧ Matches r (b :: u) ∧ Matches s v := by simp only [hr]
    unfold deriv
    split
    · rename_i hn
      rw [matches_mkAlt, matches_mkCat, key, hs, matches_cat]
      constructor
      · rintro (⟨u, v, rfl, h₁, h₂⟩ | h)
        · exact ⟨b :: u, v, rfl, h₁, h₂⟩
        · exact ⟨[], b :: w, rfl, (nullable_iff r).1 hn, h⟩
      · rintro ⟨u, v, huv, h₁, h₂⟩
        cases u with
        | nil => right; simp only [List.nil_append] at huv; rw [huv]; exact h₂
        | cons c u =>
          simp only [List.cons_append, List.cons.injEq] at huv
          obtain ⟨rfl, rfl⟩ := huv
          exact Or.inl ⟨u, v, rfl, h₁, h₂⟩
    · rename_i hn
      rw [matches_mkCat, key, matches_cat]
      constructor
      · rintro ⟨u, v, rfl, h₁, h₂⟩
        exact ⟨b :: u, v, rfl, h₁, h₂⟩
      · rintro ⟨u, v, huv, h₁, h₂⟩
        cases u with
        | nil => exact absurd ((nullable_iff r).2 h₁) hn
        | cons c u =>
          simp only [List.cons_append, List.cons.injEq] at huv
          obtain ⟨rfl, rfl⟩ := huv
          exact ⟨u, v, rfl, h₁, h₂⟩
  | star r hr =>
    rw [deriv, matches_mkCat, matches_star_cons]
    simp only [hr]

/-- The patterns that are still alive, with what is left of them. -/
abbrev Vec := List (ℕ × RE)

/-- What is left of the patterns after the character `b`. -/
def dv (b : Byte) (v : Vec) : Vec :=
  v.filterMap fun x => match deriv b x.2 with
    | .empty => none
    | r => some (x.1, r)

/-- Forget the patterns that cannot go on. -/
def strip (v : Vec) : Vec := v.filter fun x => match x.2 with
  | .eps => false
  | _ => true

/-- The first pattern that is complete. -/
def firstNull (v : Vec) : Option ℕ := (v.find? fun x => nullable x.2).map Prod.fst

/-- All patterns, with their numbers. -/
def allPatterns : Vec := patterns.zipIdx.map fun x => (x.2, x.1.1)

end Schnek.Lemma.Lexer
