import Verif.Model.Boundary
import Verif.Spec.Range
import Mathlib.Tactic.Linarith
import Mathlib.Data.Set.Basic

/-!
# C15, C16: ghost, inner and source domains
-/

namespace Schnek.Props

open Schnek Schnek.Spec Function

variable {n : ℕ}

/-- the cells of a range -/
def box (r : Range n) : Set (Idx n) := {p | InBox r.lo r.hi p}

/-- which cells are in the lower / upper ghost layers of dimension `d`: the first / last `delta` layers of the domain -/
def GhostCell (B : Boundary n) (d : Fin n) (b : Bound) (p : Idx n) : Prop :=
  InBox B.size.lo B.size.hi p ∧
    match b with
    | .min => p d < B.size.lo d + B.delta
    | .max => B.size.hi d - B.delta < p d

private theorem ghost_mem (B : Boundary n) (d : Fin n) (b : Bound) (p : Idx n)
    (hw : B.delta ≤ B.size.hi d - B.size.lo d + 1) :
    p ∈ box (B.ghostDomain d b) ↔ GhostCell B d b p := by
  cases b with
  | min =>
    simp only [box, Set.mem_ofPred_eq, InBox, Boundary.ghostDomain, GhostCell]
    constructor
    · intro h
      have hd := h d
      simp only [update_self] at hd
      refine ⟨fun i => ?_, by omega⟩
      by_cases hi : i = d
      · subst hi; omega
      · have := h i; rw [update_of_ne hi] at this; exact this
    · rintro ⟨h1, h2⟩ i
      by_cases hi : i = d
      · subst hi; simp only [update_self]; have := h1 i; omega
      · rw [update_of_ne hi]; exact h1 i
  | max =>
    simp only [box, Set.mem_ofPred_eq, InBox, Boundary.ghostDomain, GhostCell]
    constructor
    · intro h
      have hd := h d
      simp only [update_self] at hd
      refine ⟨fun i => ?_, by omega⟩
      by_cases hi : i = d
      · subst hi; omega
      · have := h i; rw [update_of_ne hi] at this; exact this
    · rintro ⟨h1, h2⟩ i
      by_cases hi : i = d
      · subst hi; simp only [update_self]; have := h1 i; omega
      · rw [update_of_ne hi]; exact h1 i

/-- **C15** The inner domain and the `2*rank` ghost domains cover the local domain; the inner domain is disjoint from all
ghost domains; the two ghost domains of one dimension are disjoint. The ghost domains are the first and last
`delta` layers. -/
theorem C15_ghost_and_inner_partition (B : Boundary n) (hδ : 0 ≤ B.delta)
    (hin : ∀ i, B.size.lo i + B.delta ≤ B.size.hi i - B.delta) :
    (∀ p, p ∈ box B.size ↔ p ∈ box B.innerDomain ∨ ∃ d b, p ∈ box (B.ghostDomain d b)) ∧
    (∀ p d b, p ∈ box B.innerDomain → p ∉ box (B.ghostDomain d b)) ∧
    (∀ p d, p ∈ box (B.ghostDomain d .min) → p ∉ box (B.ghostDomain d .max)) ∧
    (∀ p d b, p ∈ box (B.ghostDomain d b) ↔ GhostCell B d b p) := by
  have hg : ∀ p d b, p ∈ box (B.ghostDomain d b) ↔ GhostCell B d b p := fun p d b =>
    ghost_mem B d b p (by have := hin d; omega)
  refine ⟨fun p => ?_, fun p d b hp hc => ?_, fun p d hp hc => ?_, hg⟩
  · constructor
    · intro hp
      by_cases h : p ∈ box B.innerDomain
      · exact Or.inl h
      · right
        have : ∃ d, ¬ (B.size.lo d + B.delta ≤ p d ∧ p d ≤ B.size.hi d - B.delta) := by
          by_contra hc
          exact h (fun i => by
            by_contra hh
            exact hc ⟨i, hh⟩)
        obtain ⟨d, hd⟩ := this
        by_cases h1 : p d < B.size.lo d + B.delta
        · exact ⟨d, .min, (hg p d .min).mpr ⟨hp, h1⟩⟩
        · exact ⟨d, .max, (hg p d .max).mpr ⟨hp, by show _ < _; omega⟩⟩
    · rintro (h | ⟨d, b, h⟩)
      · intro i
        have := h i
        simp only [Boundary.innerDomain] at this
        omega
      · exact ((hg p d b).mp h).1
  · have h1 := hp d
    simp only [Boundary.innerDomain] at h1
    have h2 := ((hg p d b).mp hc).2
    cases b <;> simp only at h2 <;> omega
  · have h1 := ((hg p d .min).mp hp).2
    have h2 := ((hg p d .max).mp hc).2
    have h3 := hin d
    simp only at h1 h2
    omega

/-- non-vacuity: a 2-dimensional domain with two ghost cells; one cell of a corner is in two ghost domains -/
example : let B : Boundary 2 := ⟨⟨![-2, -2], ![11, 6]⟩, 2⟩
    0 ≤ B.delta ∧ (∀ i, B.size.lo i + B.delta ≤ B.size.hi i - B.delta) ∧
    GhostCell B 0 .min ![-1, 6] ∧ GhostCell B 1 .max ![-1, 6] := by
  refine ⟨by decide, by decide, ⟨?_, by decide⟩, ⟨?_, by decide⟩⟩ <;> (unfold InBox; decide)

/-- move a cell by `k` cells along dimension `d` -/
def moveBy (d : Fin n) (k : ℤ) (p : Idx n) : Idx n := update p d (p d + k)

/-- number of inner cells in dimension `d` -/
def innerWidth (B : Boundary n) (d : Fin n) : ℤ := B.innerDomain.hi d - B.innerDomain.lo d + 1

/-- **C16** The lower ghost domain moved up by one inner width is the upper source domain, and the upper ghost domain
moved down by one inner width is the lower source domain (for every `delta`, also `≤ 0`). -/
theorem C16_source_is_shifted_ghost (B : Boundary n) (d : Fin n) (p : Idx n) :
    (p ∈ box (B.ghostDomain d .min) ↔ moveBy d (innerWidth B d) p ∈ box (B.ghostSourceDomain d .max)) ∧
    (p ∈ box (B.ghostDomain d .max) ↔ moveBy d (- innerWidth B d) p ∈ box (B.ghostSourceDomain d .min)) := by
  constructor
  · simp only [box, Set.mem_ofPred_eq, InBox, Boundary.ghostDomain, Boundary.ghostSourceDomain, moveBy, innerWidth,
      Boundary.innerDomain]
    refine forall_congr' fun i => ?_
    by_cases hi : i = d
    · subst hi; simp only [update_self]; omega
    · simp only [update_of_ne hi]
  · simp only [box, Set.mem_ofPred_eq, InBox, Boundary.ghostDomain, Boundary.ghostSourceDomain, moveBy, innerWidth,
      Boundary.innerDomain]
    refine forall_congr' fun i => ?_
    by_cases hi : i = d
    · subst hi; simp only [update_self]; omega
    · simp only [update_of_ne hi]

/-- **C16** Corresponding corners: the source domain's lower and upper corner are the ghost domain's corners moved by one
inner width, so that both have the same shape and are traversed in step. -/
theorem C16_corners (B : Boundary n) (d : Fin n) :
    (B.ghostSourceDomain d .max).lo = moveBy d (innerWidth B d) (B.ghostDomain d .min).lo ∧
    (B.ghostSourceDomain d .max).hi = moveBy d (innerWidth B d) (B.ghostDomain d .min).hi ∧
    (B.ghostSourceDomain d .min).lo = moveBy d (- innerWidth B d) (B.ghostDomain d .max).lo ∧
    (B.ghostSourceDomain d .min).hi = moveBy d (- innerWidth B d) (B.ghostDomain d .max).hi := by
  refine ⟨?_, ?_, ?_, ?_⟩ <;>
  · funext i
    simp only [Boundary.ghostDomain, Boundary.ghostSourceDomain, moveBy, innerWidth, Boundary.innerDomain]
    by_cases hi : i = d
    · subst hi; simp only [update_self]; omega
    · simp only [update_of_ne hi]

/-- **C16** The source domains consist of cells that are in no ghost layer of dimension `d` if and only if the inner
width is at least the ghost width (for a non-empty local cross section and at least one ghost cell). -/
theorem C16_source_avoids_ghosts_iff (B : Boundary n) (d : Fin n) (hδ : 1 ≤ B.delta)
    (hne : ∀ i, B.size.lo i ≤ B.size.hi i) :
    (∀ b p, p ∈ box (B.ghostSourceDomain d b) →
      B.size.lo d + B.delta ≤ p d ∧ p d ≤ B.size.hi d - B.delta) ↔ B.delta ≤ innerWidth B d := by
  simp only [innerWidth, Boundary.innerDomain]
  constructor
  · intro h
    -- the last cell of the lower source domain
    have := h .min (update B.size.lo d (B.size.lo d + B.delta + B.delta - 1)) (by
      intro i
      simp only [Boundary.ghostSourceDomain]
      by_cases hi : i = d
      · subst hi; simp only [update_self]; omega
      · simp only [update_of_ne hi]; exact ⟨le_rfl, hne i⟩)
    simp only [update_self] at this
    omega
  · intro h b p hp
    have := hp d
    cases b with
    | min => simp only [Boundary.ghostSourceDomain, update_self] at this; omega
    | max => simp only [Boundary.ghostSourceDomain, update_self] at this; omega

/-- non-vacuity: inner width 10 and ghost width 2 -/
example : let B : Boundary 2 := ⟨⟨![-2, -2], ![11, 6]⟩, 2⟩
    1 ≤ B.delta ∧ (∀ i, B.size.lo i ≤ B.size.hi i) ∧ innerWidth B 0 = 10 ∧ B.delta ≤ innerWidth B 0 ∧
    B.ghostSourceDomain 0 .max = ⟨![8, -2], ![9, 6]⟩ := by
  refine ⟨by decide, by decide, by decide, by decide, by decide⟩

/-- **C15** The boundary domain used for fields: without stagger it is the ghost domain; with stagger the lower one has one
layer less (the staggered points next to the boundary belong to the inside), the upper one is the ghost domain. -/
theorem C15_field_boundary (B : Boundary n) (d : Fin n) (b : Bound) :
    B.boundaryDomain d b false = B.ghostDomain d b ∧
    B.boundaryDomain d .max true = B.ghostDomain d .max ∧
    (∀ p, p ∈ box (B.boundaryDomain d .min true) ↔
      p ∈ box (B.ghostDomain d .min) ∧ p d ≠ B.size.lo d + B.delta - 1) := by
  refine ⟨by cases b <;> simp [Boundary.boundaryDomain, Boundary.ghostDomain], rfl, fun p => ?_⟩
  simp only [box, Set.mem_ofPred_eq, InBox, Boundary.ghostDomain, Boundary.boundaryDomain]
  constructor
  · intro h
    have hd := h d
    simp only [update_self, if_true] at hd
    refine ⟨fun i => ?_, by omega⟩
    by_cases hi : i = d
    · subst hi; simp only [update_self]; omega
    · have := h i; simp only [update_of_ne hi] at this ⊢; exact this
  · rintro ⟨h1, h2⟩ i
    have := h1 i
    by_cases hi : i = d
    · subst hi; simp only [update_self, if_true] at this ⊢; omega
    · simp only [update_of_ne hi] at this ⊢; exact this

end Schnek.Props
