import Verif.Lemma.Exchange

/-!
# C17, C18, C19: ghost cell exchange and accumulation of the serial subdivision
-/

namespace Schnek.Props

open Schnek Schnek.Spec Schnek.Lemma.Exchange Function

variable {n : ℕ} {T : Type}

/-- the inner cell of which `p` is a periodic image: each component is moved into the inner range by a multiple of the inner
width -/
def periodicImage (B : Boundary n) (p : Idx n) : Idx n :=
  fun i => B.innerDomain.lo i + (p i - B.innerDomain.lo i) % innerWidth B i

/-- sanity check of the specification: `periodicImage` is the one and only inner cell that differs from `p` by a multiple of
the inner width in each dimension -/
theorem periodicImage_unique (B : Boundary n) (hw : ∀ i, 1 ≤ innerWidth B i) (p q : Idx n) :
    (q ∈ box B.innerDomain ∧ ∀ i, innerWidth B i ∣ p i - q i) ↔ q = periodicImage B p := by
  constructor
  · rintro ⟨h1, h2⟩
    funext i
    obtain ⟨t, ht⟩ := h2 i
    have h3 := h1 i
    have : p i - B.innerDomain.lo i = (q i - B.innerDomain.lo i) + innerWidth B i * t := by omega
    have hlt : q i - B.innerDomain.lo i < innerWidth B i := by simp only [innerWidth]; omega
    show q i = B.innerDomain.lo i + (p i - B.innerDomain.lo i) % innerWidth B i
    rw [this, Int.add_mul_emod_self_left, Int.emod_eq_of_lt (by omega) hlt]
    omega
  · rintro rfl
    refine ⟨fun i => ?_, fun i => ?_⟩
    · have h1 := Int.emod_nonneg (p i - B.innerDomain.lo i) (show innerWidth B i ≠ 0 by have := hw i; omega)
      have h2 := Int.emod_lt_of_pos (p i - B.innerDomain.lo i) (show 0 < innerWidth B i by have := hw i; omega)
      have h3 : innerWidth B i = B.innerDomain.hi i - B.innerDomain.lo i + 1 := rfl
      simp only [periodicImage]
      omega
    · have := Int.emod_add_mul_ediv (p i - B.innerDomain.lo i) (innerWidth B i)
      refine ⟨(p i - B.innerDomain.lo i) / innerWidth B i, ?_⟩
      simp only [periodicImage]
      omega

/-- loop over the dimensions: an invariant over the set of dimensions already done -/
theorem overDims_inv (step : Fin n → GridMap n T → Option (GridMap n T) → Prop) (R : Range n)
    (Inv : Finset (Fin n) → (Idx n → T) → Prop)
    (hstep : ∀ D d c, d ∉ D → Inv D c →
      ∃ c', (∀ out, step d ⟨R, c⟩ out ↔ out = some ⟨R, c'⟩) ∧ Inv (insert d D) c') :
    ∀ (ds : List (Fin n)) (D : Finset (Fin n)) (c : Idx n → T), ds.Nodup → (∀ d ∈ ds, d ∉ D) → Inv D c →
      ∃ c' D', (∀ out, Serial.OverDims step ds ⟨R, c⟩ out ↔ out = some ⟨R, c'⟩) ∧ (∀ i, i ∈ D' ↔ i ∈ D ∨ i ∈ ds) ∧
        Inv D' c'
  | [], D, c, _, _, h => ⟨c, D, fun out => Iff.rfl, by simp, h⟩
  | d :: ds, D, c, hn, hd, h => by
    obtain ⟨c₁, e1, i1⟩ := hstep D d c (hd d List.mem_cons_self) h
    rw [List.nodup_cons] at hn
    obtain ⟨c', D', e2, hD', i2⟩ := overDims_inv step R Inv hstep ds _ c₁ hn.2
      (fun x hx hc => by
        rcases Finset.mem_insert.mp hc with rfl | h'
        · exact hn.1 hx
        · exact hd x (List.mem_cons_of_mem _ hx) h') i1
    refine ⟨c', D', fun out => ?_, fun i => ?_, i2⟩
    · constructor
      · rintro ⟨mid, m1, m2⟩
        rw [e1] at m1; subst m1
        exact (e2 out).mp m2
      · rintro rfl
        exact ⟨some ⟨R, c₁⟩, (e1 _).mpr rfl, (e2 _).mpr rfl⟩
    · rw [hD' i, Finset.mem_insert, List.mem_cons]; tauto

/-- **C17** `exchange(grid)` terminates without touching a cell outside of the grid, and afterwards every cell of the local
domain, ghost cells, edges and corners included, holds what its periodic image in the inner domain held before. Cells outside
of the local domain are unchanged. The grid may be larger than the local domain. -/
theorem C17_exchange_is_periodic (B : Boundary n) (hδ : 1 ≤ B.delta) (hw : ∀ i, B.delta ≤ innerWidth B i)
    (g : GridMap n T) (hcov : ∀ p ∈ box B.size, g.range.inside p = true) :
    ∃ g' : GridMap n T, (∀ out, Serial.Exchange B g out ↔ out = some g') ∧ g'.range = g.range ∧
      (∀ p ∈ box B.size, g'.cell p = g.cell (periodicImage B p)) ∧
      (∀ p, p ∉ box B.size → g'.cell p = g.cell p) := by
  obtain ⟨R, c⟩ := g
  have hB : Wide B := ⟨hδ, hw⟩
  have hN : ∀ d, innerWidth B d = B.size.hi d - B.size.lo d + 1 - 2 * B.delta := fun d => by
    simp only [innerWidth, Boundary.innerDomain]; ring
  obtain ⟨c', D', e, hD', i1, i2⟩ := overDims_inv (Serial.ExchangeDim B) R
    (fun D c' => (∀ p, InBox B.size.lo B.size.hi p → c' p = c (fun i => if i ∈ D then periodicImage B p i else p i)) ∧
      ∀ p, ¬ InBox B.size.lo B.size.hi p → c' p = c p)
    (by
      rintro D d c₁ hD ⟨h1, h2⟩
      obtain ⟨c', e, a1, a2, a3⟩ := exchangeDim_spec hB d R hcov c₁
      refine ⟨c', e, fun p hp => ?_, fun p hp => ?_⟩
      · have hpd := hp d
        have hd := hN d
        have hwd := hw d
        -- all cells moved along `d` have the same other components
        have key : ∀ k : ℤ, p d + k = periodicImage B p d → moveBy d k p ∈ box B.size →
            c₁ (moveBy d k p) = c (fun i => if i ∈ insert d D then periodicImage B p i else p i) := by
          intro k hk hm
          rw [h1 _ hm]
          congr 1
          funext i
          by_cases hi : i = d
          · subst hi
            rw [if_neg hD, if_pos (Finset.mem_insert_self _ _), moveBy_apply, if_pos rfl, hk]
          · have hm : moveBy d k p i = p i := by rw [moveBy_apply, if_neg hi]
            by_cases hDi : i ∈ D
            · rw [if_pos hDi, if_pos (Finset.mem_insert_of_mem hDi)]
              simp only [periodicImage, hm]
            · rw [if_neg hDi, if_neg (by rw [Finset.mem_insert]; tauto), hm]
        by_cases hl : p d < B.size.lo d + B.delta
        · rw [a1 p hp hl]
          refine key _ ?_ (inBox_moveBy hp (by omega))
          have : (p d - (B.size.lo d + B.delta)) % innerWidth B d = p d - (B.size.lo d + B.delta) + innerWidth B d := by
            rw [← Int.add_emod_right, Int.emod_eq_of_lt (by omega) (by omega)]
          simp only [periodicImage, Boundary.innerDomain] at this ⊢
          omega
        · by_cases hh : B.size.hi d - B.delta < p d
          · rw [a2 p hp hh]
            refine key _ ?_ (inBox_moveBy hp (by omega))
            have : (p d - (B.size.lo d + B.delta)) % innerWidth B d = p d - (B.size.lo d + B.delta) - innerWidth B d := by
              rw [← Int.sub_emod_right, Int.emod_eq_of_lt (by omega) (by omega)]
            simp only [periodicImage, Boundary.innerDomain] at this ⊢
            omega
          · rw [a3 p (by omega)]
            have e0 : moveBy d 0 p = p := by funext i; rw [moveBy_apply]; split <;> omega
            have := key 0 (by
              have : (p d - (B.size.lo d + B.delta)) % innerWidth B d = p d - (B.size.lo d + B.delta) :=
                Int.emod_eq_of_lt (by omega) (by omega)
              simp only [periodicImage, Boundary.innerDomain] at this ⊢
              omega) (by rw [e0]; exact hp)
            rwa [e0] at this
      · rw [a3 p (fun h => hp h.1), h2 p hp])
    (List.finRange n) ∅ c (List.nodup_finRange n) (by simp) ⟨by simp, fun _ _ => rfl⟩
  refine ⟨⟨R, c'⟩, e, rfl, fun p hp => ?_, i2⟩
  simp only [i1 p hp, hD', List.mem_finRange, or_true, if_true]

/-- **C17** In particular the inner cells are unchanged. -/
theorem C17_inner_cells_unchanged (B : Boundary n) (hδ : 1 ≤ B.delta) (hw : ∀ i, B.delta ≤ innerWidth B i)
    (g g' : GridMap n T) (hcov : ∀ p ∈ box B.size, g.range.inside p = true) (h : Serial.Exchange B g (some g'))
    (p : Idx n) (hp : p ∈ box B.innerDomain) : g'.cell p = g.cell p := by
  obtain ⟨g'', e, -, h1, -⟩ := C17_exchange_is_periodic B hδ hw g hcov
  have := (e _).mp h
  cases this
  rw [h1 p (fun i => by have := hp i; simp only [Boundary.innerDomain] at this; omega)]
  congr 1
  exact ((periodicImage_unique B (fun i => by have := hw i; omega) p p).mp ⟨hp, fun i => by simp⟩).symm

/-- non-vacuity: a 10 × 5 domain with two ghost cells on each side; the corner (-2,-1) is an image of (8,4) -/
example : let B : Boundary 2 := ⟨⟨![-2, -2], ![11, 6]⟩, 2⟩
    1 ≤ B.delta ∧ (∀ i, B.delta ≤ innerWidth B i) ∧ periodicImage B ![-2, -1] = ![8, 4] ∧
    ∃ g : GridMap 2 ℕ, ∀ p ∈ box B.size, g.range.inside p = true := by
  refine ⟨by decide, by decide, by decide, ⟨⟨![-2, -2], ![11, 6]⟩, fun _ => 0⟩, fun p hp => ?_⟩
  exact (C01_inside_iff _ _).mpr hp

/-- **C18 (finding: violated)** With ghost width 0 the exchange of *every* grid of rank ≥ 1 whose range is the local domain
accesses a cell outside of the grid: there is no other outcome. -/
theorem C18_violated_no_ghost_cells_reads_outside (B : Boundary (n + 1)) (hδ : B.delta = 0) (g : GridMap (n + 1) T)
    (hg : g.range = B.size) (out : Option (GridMap (n + 1) T)) : Serial.Exchange B g out ↔ out = none := by
  have hout : g.range.inside (B.ghostSourceDomain 0 .max).lo = false := by
    rw [Bool.eq_false_iff]
    intro h
    have := (C01_inside_iff _ _).mp h 0
    simp only [hg, Boundary.ghostSourceDomain, update_self, hδ] at this
    omega
  have hne : (B.ghostDomain 0 .min).iterBegin ≠ (B.ghostDomain 0 .min).iterEnd := by
    intro h; have := congrArg RangeIter.atEnd h; simp [Range.iterEnd, Range.iterBegin] at this
  have hbody : Serial.copyCell (B.ghostDomain 0 .min).iterBegin.pos (B.ghostSourceDomain 0 .max).iterBegin.pos g = none := by
    simp only [Range.iterBegin, Serial.copyCell, GridMap.read, hout]
    rfl
  have h1 := ParLoop.fault (r₂ := B.ghostSourceDomain 0 .max) (it₂ := (B.ghostSourceDomain 0 .max).iterBegin)
    (body := fun loIt hiIt => Serial.copyCell loIt hiIt) hne hbody
  simp only [Serial.Exchange, List.finRange_succ, Serial.OverDims]
  constructor
  · rintro ⟨mid, ⟨mid', m1, m2⟩, m3⟩
    have := parLoop_unique m1 h1
    subst this
    simp only at m2
    subst m2
    exact m3
  · rintro rfl
    exact ⟨none, ⟨none, h1, rfl⟩, rfl⟩

/-- the hypotheses of the finding are met by an ordinary grid without ghost cells -/
example : ∃ (B : Boundary 2) (g : GridMap 2 ℕ), B.delta = 0 ∧ g.range = B.size ∧ ∀ i, B.size.lo i < B.size.hi i :=
  ⟨⟨⟨![0, 0], ![9, 9]⟩, 0⟩, ⟨⟨![0, 0], ![9, 9]⟩, fun _ => 0⟩, rfl, rfl, by decide⟩

/-- **C19** `accumulate(grid)` terminates without touching a cell outside of the grid; afterwards a cell of the local domain
holds the sum over all cells of the local domain which are periodic images of it (itself included). This holds for every
cell if the inner width is at least twice the ghost width in each dimension, and for a cell whose `i`-th component is in the
inner range, it suffices that the inner width in dimension `i` is at least the ghost width. Cells outside of the local domain
are unchanged. -/
theorem C19_accumulate_sums_images [AddCommMonoid T] (B : Boundary n) (hδ : 1 ≤ B.delta)
    (hw : ∀ i, B.delta ≤ innerWidth B i) (g : GridMap n T) (hcov : ∀ p ∈ box B.size, g.range.inside p = true) :
    ∃ g' : GridMap n T, (∀ out, Serial.Accumulate B g out ↔ out = some g') ∧ g'.range = g.range ∧
      (∀ p ∈ box B.size,
        (∀ i, 2 * B.delta ≤ innerWidth B i ∨ (B.innerDomain.lo i ≤ p i ∧ p i ≤ B.innerDomain.hi i)) →
        g'.cell p = ∑ q ∈ (Finset.Icc B.size.lo B.size.hi).filter (fun q => ∀ i, innerWidth B i ∣ q i - p i), g.cell q) ∧
      (∀ p, p ∉ box B.size → g'.cell p = g.cell p) := by
  obtain ⟨R, c⟩ := g
  have hB : Wide B := ⟨hδ, hw⟩
  obtain ⟨c', D', e, hD', i1, i2⟩ := overDims_inv (Serial.AccumulateDim B) R
    (fun D c' => (∀ p, InBox B.size.lo B.size.hi p →
        (∀ i, i ∈ D → 2 * B.delta ≤ innerWidth B i ∨ (B.innerDomain.lo i ≤ p i ∧ p i ≤ B.innerDomain.hi i)) →
        c' p = ∑ q ∈ (Finset.Icc B.size.lo B.size.hi).filter
          (fun q => ∀ i, if i ∈ D then innerWidth B i ∣ q i - p i else q i = p i), c q) ∧
      ∀ p, ¬ InBox B.size.lo B.size.hi p → c' p = c p)
    (by
      rintro D d c₁ hD ⟨h1, h2⟩
      obtain ⟨c', e, a1, a2⟩ := accumulateDim_spec hB d R hcov c₁
      refine ⟨c', e, fun p hp hq => ?_, fun p hp => ?_⟩
      · rw [a1 p hp (hq d (Finset.mem_insert_self _ _))]
        have hx : ∀ x ∈ (Finset.Icc (B.size.lo d) (B.size.hi d)).filter (fun x => innerWidth B d ∣ x - p d),
            c₁ (update p d x) = ∑ q ∈ (Finset.Icc B.size.lo B.size.hi).filter
              (fun q => ∀ i, if i ∈ D then innerWidth B i ∣ q i - (update p d x) i else q i = (update p d x) i), c q := by
          intro x hx
          rw [Finset.mem_filter, Finset.mem_Icc] at hx
          refine h1 _ (fun i => ?_) (fun i hi => ?_)
          · by_cases h : i = d
            · subst h; simpa using hx.1
            · simpa [h] using hp i
          · have : i ≠ d := fun h => hD (h ▸ hi)
            simpa [this] using hq i (Finset.mem_insert_of_mem hi)
        rw [Finset.sum_congr rfl hx]
        show _ = ∑ q ∈ (Finset.Icc B.size.lo B.size.hi).filter
            (fun q => ∀ i, if i ∈ insert d D then innerWidth B i ∣ q i - p i else q i = p i), c q
        rw [← Finset.sum_fiberwise_of_maps_to (s := (Finset.Icc B.size.lo B.size.hi).filter
            (fun q => ∀ i, if i ∈ insert d D then innerWidth B i ∣ q i - p i else q i = p i))
          (t := (Finset.Icc (B.size.lo d) (B.size.hi d)).filter (fun x => innerWidth B d ∣ x - p d))
          (g := fun q => q d)]
        · refine Finset.sum_congr rfl fun x hx => ?_
          refine Finset.sum_congr ?_ fun _ _ => rfl
          ext q
          rw [Finset.mem_filter, Finset.mem_Icc] at hx
          simp only [Finset.mem_filter, and_assoc]
          refine and_congr_right fun hqb => ?_
          constructor
          · intro h
            have hd := h d
            rw [if_neg hD, update_self] at hd
            refine ⟨fun i => ?_, hd⟩
            by_cases hi : i = d
            · subst hi; rw [if_pos (Finset.mem_insert_self _ _), hd]; exact hx.2
            · have := h i
              rw [update_of_ne hi] at this
              by_cases hDi : i ∈ D
              · rw [if_pos hDi] at this; rw [if_pos (Finset.mem_insert_of_mem hDi)]; exact this
              · rw [if_neg hDi] at this; rw [if_neg (by rw [Finset.mem_insert]; tauto)]; exact this
          · rintro ⟨h, hd⟩ i
            have := h i
            by_cases hi : i = d
            · subst hi; rw [if_neg hD, update_self, hd]
            · rw [update_of_ne hi]
              by_cases hDi : i ∈ D
              · rw [if_pos (Finset.mem_insert_of_mem hDi)] at this; rw [if_pos hDi]; exact this
              · rw [if_neg (by rw [Finset.mem_insert]; tauto)] at this; rw [if_neg hDi]; exact this
        · intro q hq
          rw [Finset.mem_filter, Finset.mem_Icc] at hq
          rw [Finset.mem_filter, Finset.mem_Icc]
          refine ⟨⟨hq.1.1 d, hq.1.2 d⟩, ?_⟩
          have := hq.2 d
          rwa [if_pos (Finset.mem_insert_self _ _)] at this
      · rw [a2 p hp, h2 p hp])
    (List.finRange n) ∅ c (List.nodup_finRange n) (by simp) ⟨fun p hp _ => by
      refine (Finset.sum_singleton c p).symm.trans (Finset.sum_congr ?_ fun _ _ => rfl)
      ext q
      simp only [Finset.notMem_empty, if_false, Finset.mem_filter, Finset.mem_Icc, Finset.mem_singleton]
      constructor
      · rintro rfl; exact ⟨⟨fun i => (hp i).1, fun i => (hp i).2⟩, fun _ => rfl⟩
      · exact fun h => funext h.2, fun _ _ => rfl⟩
  refine ⟨⟨R, c'⟩, e, rfl, fun p hp h => ?_, i2⟩
  refine (i1 p hp (fun i _ => h i)).trans ?_
  simp only [hD', List.mem_finRange, or_true, if_true]

/-- non-vacuity: inner width 10 × 5 with two ghost cells -/
example : let B : Boundary 2 := ⟨⟨![-2, -2], ![11, 6]⟩, 2⟩
    1 ≤ B.delta ∧ (∀ i, B.delta ≤ innerWidth B i) ∧ ∀ i, 2 * B.delta ≤ innerWidth B i := by
  refine ⟨by decide, by decide, by decide⟩

end Schnek.Props
