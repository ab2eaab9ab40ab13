import Verif.Model.SubGridShared
import Verif.Lemma.SubGrid

/-! # Lemmas about two sub-grids of the same grid -/

namespace Schnek.Lemma.SubGrid

open Spec Props

variable {T : Type} {n : ℕ}

theorem opLoopSame_spec (op : T → T → T) (s s2 : SubGrid n) (ha : s.attached = true)
    (ha2 : s2.attached = true) (hne : ∀ i, s.domain.lo i ≤ s.domain.hi i) (hne2 : ∀ i, s2.domain.lo i ≤ s2.domain.hi i)
    (c : Idx (n + 1) → Idx (n + 1)) :
    ∀ (l : List (Idx (n + 1))) (g : Grid T n), Usable g →
      (∀ p, InBox s.domain.lo s.domain.hi p → InBox g.range.lo g.range.hi p) →
      (∀ p, InBox s2.domain.lo s2.domain.hi p → InBox g.range.lo g.range.hi p) →
      (∀ p ∈ l, InBox s.domain.lo s.domain.hi p) → (∀ p ∈ l, InBox s2.domain.lo s2.domain.hi (c p)) → l.Nodup →
      l.Pairwise (fun p q => c q ≠ p) →
      ∃ g', s.opLoopSame op s2 l (l.map c) g = some g' ∧ g'.range = g.range ∧ Usable g' ∧
        (∀ p ∈ l, ∀ x y, g.get? p = some x → g.get? (c p) = some y → g'.get? p = some (op x y)) ∧
        ∀ p, InBox g.range.lo g.range.hi p → p ∉ l → g'.get? p = g.get? p := by
  intro l
  induction l with
  | nil => intro g hg _ _ _ _ _ _; exact ⟨g, rfl, rfl, hg, by simp, fun _ _ _ => rfl⟩
  | cons a l ih =>
    intro g hg hsub hsub2 hl hl2 hnd hpw
    rw [List.nodup_cons] at hnd
    rw [List.pairwise_cons] at hpw
    have hain := hl a (by simp)
    obtain ⟨xa, hxa⟩ := C07_read_defined g hg a (hsub a hain)
    obtain ⟨ya, hya⟩ := C07_read_defined g hg (c a) (hsub2 _ (hl2 a (by simp)))
    obtain ⟨g1, h1, h2, h3, h4, h5⟩ := C07_write_read g hg a (hsub a hain) (op xa ya)
    obtain ⟨g', i1, i2, i3, i4, i5⟩ := ih g1 h3 (by rw [h2]; exact hsub) (by rw [h2]; exact hsub2)
      (fun p hp => hl p (by simp [hp])) (fun p hp => hl2 p (by simp [hp])) hnd.2 hpw.2
    have hel := element_some s g1 h3 ha (s.nextPos l)
      (by rw [h2]; exact hsub _ (nextPos_mem s l hne fun p hp => hl p (by simp [hp])))
    have hel2 := element_some s2 g1 h3 ha2 (s2.nextPos (l.map c))
      (by rw [h2]; exact hsub2 _ (nextPos_mem s2 (l.map c) hne2 fun p hp => by
        obtain ⟨q, hq, rfl⟩ := List.mem_map.mp hp
        exact hl2 q (by simp [hq])))
    refine ⟨g', by simp [SubGrid.opLoopSame, hxa, hya, h1, hel, hel2, i1], i2.trans h2, i3, ?_, ?_⟩
    · intro p hp x y hx hy
      by_cases hpa : p = a
      · subst hpa
        rw [i5 p (by rw [h2]; exact hsub p hain) hnd.1, h4]
        rw [hx] at hxa; rw [hy] at hya
        cases hxa; cases hya; rfl
      · have hpl : p ∈ l := by simpa [hpa] using hp
        refine i4 p hpl x y (by rw [h5 p (hsub p (hl p hp)) hpa, hx]) ?_
        rw [h5 (c p) (hsub2 _ (hl2 p hp)) (hpw.1 p hpl), hy]
    · intro p hp hpl
      simp only [List.mem_cons, not_or] at hpl
      rw [i5 p (by rw [h2]; exact hp) hpl.2, h5 p hp hpl.1]

theorem opBase_spec (op : T → T → T) (s : SubGrid n) (ha : s.attached = true) :
    ∀ (l : List (Idx (n + 1))) (g : Grid T n), Usable g →
      (∀ p, InBox s.domain.lo s.domain.hi p → InBox g.range.lo g.range.hi p) →
      (∀ p ∈ l, InBox s.domain.lo s.domain.hi p) → l.Nodup →
      ∃ g', s.opAssignBase op l g = some g' ∧ g'.range = g.range ∧ Usable g' ∧
        (∀ p ∈ l, ∀ x, g.get? p = some x → g'.get? p = some (op x x)) ∧
        ∀ p, InBox g.range.lo g.range.hi p → p ∉ l → g'.get? p = g.get? p := by
  intro l
  induction l with
  | nil => intro g hg _ _ _; exact ⟨g, rfl, rfl, hg, by simp, fun _ _ _ => rfl⟩
  | cons a l ih =>
    intro g hg hsub hl hnd
    rw [List.nodup_cons] at hnd
    have hain := hl a (by simp)
    obtain ⟨xa, hxa⟩ := C07_read_defined g hg a (hsub a hain)
    obtain ⟨g1, h1, h2, h3, h4, h5⟩ := C07_write_read g hg a (hsub a hain) (op xa xa)
    obtain ⟨g', i1, i2, i3, i4, i5⟩ := ih g1 h3 (by rw [h2]; exact hsub) (fun p hp => hl p (by simp [hp])) hnd.2
    have hidx : s.index a = some a := by simp [SubGrid.index, ha, check_inside _ _ _ _ hain]
    refine ⟨g', by simp [SubGrid.opAssignBase, hidx, hxa, h1, i1], i2.trans h2, i3, ?_, ?_⟩
    · intro p hp x hx
      by_cases hpa : p = a
      · subst hpa
        rw [i5 p (by rw [h2]; exact hsub p hain) hnd.1, h4]
        rw [hx] at hxa
        cases hxa; rfl
      · have hpl : p ∈ l := by simpa [hpa] using hp
        exact i4 p hpl x (by rw [h5 p (hsub p (hl p hp)) hpa, hx])
    · intro p hp hpl
      simp only [List.mem_cons, not_or] at hpl
      rw [i5 p (by rw [h2]; exact hp) hpl.2, h5 p hp hpl.1]

end Schnek.Lemma.SubGrid
