import Verif.Model.SubGrid
import Verif.Props.Storage
import Verif.Props.Check

/-! # Lemmas about sub-grids -/

namespace Schnek.Lemma.SubGrid

open Spec Props

variable {T T2 : Type} {n : ℕ}

theorem check_inside (P : Policy) (p lo hi : Idx n) (h : InBox lo hi p) : P.check p lo hi = some p := by
  cases P
  · rfl
  · exact (C08_assert p lo hi).1 h
  · simp only [Policy.check]
    rw [C08_debug_inside p lo hi _ h]

theorem check_range (P : Policy) (p q lo hi : Idx n) (hne : ∀ i, lo i ≤ hi i) (hP : P ≠ .noArg) (h : P.check p lo hi = some q) :
    InBox lo hi q := by
  cases P
  · exact (hP rfl).elim
  · by_cases hin : InBox lo hi p
    · simp only [Policy.check, (C08_assert p lo hi).1 hin, Option.some.injEq] at h
      rw [← h]; exact hin
    · simp [Policy.check, (C08_assert p lo hi).2 hin] at h
  · simp only [Policy.check, Option.some.injEq] at h
    rw [← h]
    by_cases hin : InBox lo hi p
    · rw [C08_debug_inside p lo hi _ hin]; exact hin
    · exact (C08_debug_outside p lo hi _ hne hin).1

theorem check_mem (P : Policy) (p q lo hi : Idx n) (hne : ∀ i, lo i ≤ hi i) (hp : InBox lo hi p) (h : P.check p lo hi = some q) :
    InBox lo hi q := by
  rw [check_inside P p lo hi hp, Option.some.injEq] at h
  rw [← h]; exact hp

theorem lex_trichotomy (p q : Idx n) : p = q ∨ LexLt p q ∨ LexLt q p := by
  by_cases h : p = q
  · exact .inl h
  right
  have hex : ∃ k : ℕ, ∃ hk : k < n, p ⟨k, hk⟩ ≠ q ⟨k, hk⟩ := by
    by_contra hc
    push Not at hc
    exact h (funext fun i => hc i.1 i.2)
  classical
  obtain ⟨hk, hne⟩ := Nat.find_spec hex
  have hmin : ∀ j : Fin n, j.1 < Nat.find hex → p j = q j := by
    intro j hj
    have := Nat.find_min hex hj
    push Not at this
    exact this j.2
  rcases lt_or_gt_of_ne hne with hlt | hlt
  · exact .inl ⟨⟨_, hk⟩, fun j hj => hmin j hj, hlt⟩
  · exact .inr ⟨⟨_, hk⟩, fun j hj => (hmin j hj).symm, hlt⟩

theorem lex_asymm (p q : Idx n) (h1 : LexLt p q) (h2 : LexLt q p) : False := by
  obtain ⟨k, a, b⟩ := h1
  obtain ⟨k', a', b'⟩ := h2
  rcases lt_trichotomy k k' with h | h | h
  · rw [a' k h] at b; omega
  · subst h; omega
  · rw [a k' h] at b'; omega

theorem enumerates_unique {S : Idx n → Prop} {l l' : List (Idx n)} (h : Enumerates LexLt S l) (h' : Enumerates LexLt S l') :
    l = l' := by
  refine List.Perm.eq_of_pairwise (fun a b _ _ h1 h2 => (lex_asymm a b h1 h2).elim) h.sorted h'.sorted ?_
  exact (List.perm_ext_iff_of_nodup h.nodup h'.nodup).mpr fun p => (h.mem_iff p).trans (h'.mem_iff p).symm

theorem enumerates_shift {lo hi lo2 hi2 : Idx n} {l l2 : List (Idx n)} (hs : ∀ i, hi2 i - lo2 i = hi i - lo i)
    (h : Enumerates LexLt (InBox lo hi) l) (h2 : Enumerates LexLt (InBox lo2 hi2) l2) :
    l2 = l.map (fun p i => p i + (lo2 i - lo i)) := by
  refine enumerates_unique h2 ⟨?_, fun p => ?_, ?_⟩
  · rw [List.pairwise_map]
    refine h.sorted.imp ?_
    rintro p q ⟨k, a, b⟩
    exact ⟨k, fun j hj => by simp only [a j hj], by simp only; omega⟩
  · rw [List.mem_map]
    constructor
    · rintro ⟨q, hq, rfl⟩ i
      have := (h.mem_iff q).mp hq i
      have := hs i
      simp only
      constructor <;> omega
    · intro hp
      refine ⟨fun i => p i - (lo2 i - lo i), (h.mem_iff _).mpr fun i => ?_, funext fun i => by simp only; omega⟩
      have := hp i
      have := hs i
      constructor <;> omega
  · refine h.nodup.map ?_
    intro p q hpq
    funext i
    have := congrFun hpq i
    simp only at this
    omega

theorem nextPos_mem (s : SubGrid n) (l : List (Idx (n + 1))) (hne : ∀ i, s.domain.lo i ≤ s.domain.hi i)
    (hl : ∀ p ∈ l, InBox s.domain.lo s.domain.hi p) : InBox s.domain.lo s.domain.hi (s.nextPos l) := by
  cases l with
  | nil => exact fun i => ⟨le_rfl, hne i⟩
  | cons q l => exact hl q (by simp)

theorem element_some (s : SubGrid n) (g : Grid T n) (hg : Usable g) (ha : s.attached = true) (p : Idx (n + 1))
    (hp : InBox g.range.lo g.range.hi p) : s.element g p = some p := by
  obtain ⟨v, hv⟩ := C07_read_defined g hg p hp
  simp [SubGrid.element, ha, hv]

theorem fillLoop_spec (s : SubGrid n) (v : T) (ha : s.attached = true) (hne : ∀ i, s.domain.lo i ≤ s.domain.hi i) :
    ∀ (l : List (Idx (n + 1))) (g : Grid T n), Usable g →
      (∀ p, InBox s.domain.lo s.domain.hi p → InBox g.range.lo g.range.hi p) →
      (∀ p ∈ l, InBox s.domain.lo s.domain.hi p) →
      ∃ g', s.fillLoop v l g = some g' ∧ g'.range = g.range ∧ Usable g' ∧ (∀ p ∈ l, g'.get? p = some v) ∧
        ∀ p, InBox g.range.lo g.range.hi p → p ∉ l → g'.get? p = g.get? p := by
  intro l
  induction l with
  | nil => intro g hg _ _; exact ⟨g, rfl, rfl, hg, by simp, fun _ _ _ => rfl⟩
  | cons a l ih =>
    intro g hg hsub hl
    have hain := hl a (by simp)
    obtain ⟨g1, h1, h2, h3, h4, h5⟩ := C07_write_read g hg a (hsub a hain) v
    obtain ⟨g', i1, i2, i3, i4, i5⟩ := ih g1 h3 (by rw [h2]; exact hsub) (fun p hp => hl p (by simp [hp]))
    have hel := element_some s g1 h3 ha (s.nextPos l)
      (by rw [h2]; exact hsub _ (nextPos_mem s l hne fun p hp => hl p (by simp [hp])))
    refine ⟨g', by simp [SubGrid.fillLoop, h1, hel, i1], i2.trans h2, i3, ?_, ?_⟩
    · intro p hp
      by_cases hpl : p ∈ l
      · exact i4 p hpl
      · have hpa : p = a := by simpa [hpl] using hp
        subst hpa
        rw [i5 p (by rw [h2]; exact hsub p hain) hpl, h4]
    · intro p hp hpl
      simp only [List.mem_cons, not_or] at hpl
      rw [i5 p (by rw [h2]; exact hp) hpl.2, h5 p hp hpl.1]

theorem opLoop_spec (op : T → T2 → T) (s s2 : SubGrid n) (g2 : Grid T2 n) (hg2 : Usable g2) (ha : s.attached = true)
    (ha2 : s2.attached = true) (hne : ∀ i, s.domain.lo i ≤ s.domain.hi i) (hne2 : ∀ i, s2.domain.lo i ≤ s2.domain.hi i)
    (hsub2 : ∀ p, InBox s2.domain.lo s2.domain.hi p → InBox g2.range.lo g2.range.hi p) (c : Idx (n + 1) → Idx (n + 1)) :
    ∀ (l : List (Idx (n + 1))) (g : Grid T n), Usable g →
      (∀ p, InBox s.domain.lo s.domain.hi p → InBox g.range.lo g.range.hi p) →
      (∀ p ∈ l, InBox s.domain.lo s.domain.hi p) → (∀ p ∈ l, InBox s2.domain.lo s2.domain.hi (c p)) → l.Nodup →
      ∃ g', s.opLoop op s2 g2 l (l.map c) g = some g' ∧ g'.range = g.range ∧ Usable g' ∧
        (∀ p ∈ l, ∀ x y, g.get? p = some x → g2.get? (c p) = some y → g'.get? p = some (op x y)) ∧
        ∀ p, InBox g.range.lo g.range.hi p → p ∉ l → g'.get? p = g.get? p := by
  intro l
  induction l with
  | nil => intro g hg _ _ _ _; exact ⟨g, rfl, rfl, hg, by simp, fun _ _ _ => rfl⟩
  | cons a l ih =>
    intro g hg hsub hl hl2 hnd
    rw [List.nodup_cons] at hnd
    have hain := hl a (by simp)
    obtain ⟨xa, hxa⟩ := C07_read_defined g hg a (hsub a hain)
    obtain ⟨ya, hya⟩ := C07_read_defined g2 hg2 (c a) (hsub2 _ (hl2 a (by simp)))
    obtain ⟨g1, h1, h2, h3, h4, h5⟩ := C07_write_read g hg a (hsub a hain) (op xa ya)
    obtain ⟨g', i1, i2, i3, i4, i5⟩ := ih g1 h3 (by rw [h2]; exact hsub) (fun p hp => hl p (by simp [hp]))
      (fun p hp => hl2 p (by simp [hp])) hnd.2
    have hel := element_some s g1 h3 ha (s.nextPos l)
      (by rw [h2]; exact hsub _ (nextPos_mem s l hne fun p hp => hl p (by simp [hp])))
    have hel2 := element_some s2 g2 hg2 ha2 (s2.nextPos (l.map c))
      (hsub2 _ (nextPos_mem s2 (l.map c) hne2 fun p hp => by
        obtain ⟨q, hq, rfl⟩ := List.mem_map.mp hp
        exact hl2 q (by simp [hq])))
    refine ⟨g', by simp [SubGrid.opLoop, hxa, hya, h1, hel, hel2, i1], i2.trans h2, i3, ?_, ?_⟩
    · intro p hp x y hx hy
      by_cases hpa : p = a
      · subst hpa
        rw [i5 p (by rw [h2]; exact hsub p hain) hnd.1, h4]
        rw [hx] at hxa; rw [hy] at hya
        cases hxa; cases hya; rfl
      · have hpl : p ∈ l := by simpa [hpa] using hp
        exact i4 p hpl x y (by rw [h5 p (hsub p (hl p hp)) hpa, hx]) hy
    · intro p hp hpl
      simp only [List.mem_cons, not_or] at hpl
      rw [i5 p (by rw [h2]; exact hp) hpl.2, h5 p hp hpl.1]

theorem opGrid_spec (op : T → T2 → T) (s : SubGrid n) (g2 : Grid T2 n) (hg2 : Usable g2) (ha : s.attached = true)
    (hsub2 : ∀ p, InBox s.domain.lo s.domain.hi p → InBox g2.range.lo g2.range.hi p) :
    ∀ (l : List (Idx (n + 1))) (g : Grid T n), Usable g →
      (∀ p, InBox s.domain.lo s.domain.hi p → InBox g.range.lo g.range.hi p) →
      (∀ p ∈ l, InBox s.domain.lo s.domain.hi p) → l.Nodup →
      ∃ g', s.opAssignGrid op g2 l g = some g' ∧ g'.range = g.range ∧ Usable g' ∧
        (∀ p ∈ l, ∀ x y, g.get? p = some x → g2.get? p = some y → g'.get? p = some (op x y)) ∧
        ∀ p, InBox g.range.lo g.range.hi p → p ∉ l → g'.get? p = g.get? p := by
  intro l
  induction l with
  | nil => intro g hg _ _ _; exact ⟨g, rfl, rfl, hg, by simp, fun _ _ _ => rfl⟩
  | cons a l ih =>
    intro g hg hsub hl hnd
    rw [List.nodup_cons] at hnd
    have hain := hl a (by simp)
    obtain ⟨xa, hxa⟩ := C07_read_defined g hg a (hsub a hain)
    obtain ⟨ya, hya⟩ := C07_read_defined g2 hg2 a (hsub2 _ hain)
    obtain ⟨g1, h1, h2, h3, h4, h5⟩ := C07_write_read g hg a (hsub a hain) (op xa ya)
    obtain ⟨g', i1, i2, i3, i4, i5⟩ := ih g1 h3 (by rw [h2]; exact hsub) (fun p hp => hl p (by simp [hp])) hnd.2
    have hidx : s.index a = some a := by simp [SubGrid.index, ha, check_inside _ _ _ _ hain]
    refine ⟨g', by simp [SubGrid.opAssignGrid, hidx, hxa, hya, h1, i1], i2.trans h2, i3, ?_, ?_⟩
    · intro p hp x y hx hy
      by_cases hpa : p = a
      · subst hpa
        rw [i5 p (by rw [h2]; exact hsub p hain) hnd.1, h4]
        rw [hx] at hxa; rw [hy] at hya
        cases hxa; cases hya; rfl
      · have hpl : p ∈ l := by simpa [hpa] using hp
        exact i4 p hpl x y (by rw [h5 p (hsub p (hl p hp)) hpa, hx]) hy
    · intro p hp hpl
      simp only [List.mem_cons, not_or] at hpl
      rw [i5 p (by rw [h2]; exact hp) hpl.2, h5 p hp hpl.1]

end Schnek.Lemma.SubGrid
