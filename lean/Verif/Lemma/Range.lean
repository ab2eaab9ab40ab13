import Verif.Model.Range
import Verif.Lemma.MixedRadix
import Mathlib.Data.List.Pairwise
import Mathlib.Data.List.Range

/-!
# Helper lemmas for range iteration
-/

namespace Schnek.Lemma

open Schnek Schnek.Spec Function

variable {n : ℕ}

/-- the integers `lo, lo+1, ..., hi` -/
def intList (lo hi : ℤ) : List ℤ := (List.range (hi + 1 - lo).toNat).map fun k : ℕ => lo + (k : ℤ)

theorem mem_intList {lo hi x : ℤ} : x ∈ intList lo hi ↔ lo ≤ x ∧ x ≤ hi := by
  simp only [intList, List.mem_map, List.mem_range]
  constructor
  · rintro ⟨k, h1, h2⟩; omega
  · rintro ⟨h1, h2⟩
    exact ⟨(x - lo).toNat, by omega, by omega⟩

theorem pairwise_intList (lo hi : ℤ) : (intList lo hi).Pairwise (· < ·) := by
  rw [intList, List.pairwise_map]
  refine List.Pairwise.imp ?_ (List.pairwise_lt_range)
  intro a b h
  omega

theorem loopLE_go_eq {σ : Type*} (body : ℤ → σ → σ) :
    ∀ (k : ℕ) (x : ℤ) (s : σ), loopLE.go body k x s =
      ((List.range k).map fun j : ℕ => x + (j : ℤ)).foldl (fun s x => body x s) s
  | 0, x, s => rfl
  | k + 1, x, s => by
    rw [loopLE.go, loopLE_go_eq body k, List.range_succ_eq_map]
    simp only [List.map_cons, List.map_map, List.foldl_cons]
    congr 1
    · simp
    · apply List.map_congr_left; intro a _; simp; ring

theorem loopLE_eq {σ : Type*} (lo hi : ℤ) (body : ℤ → σ → σ) (s : σ) :
    loopLE lo hi body s = (intList lo hi).foldl (fun s x => body x s) s :=
  loopLE_go_eq body _ lo s

/-! ## iterator -/

theorem inside_iff (r : Range n) (p : Idx n) : r.inside p = true ↔ InBox r.lo r.hi p := by
  simp only [Range.inside, List.all_eq_true, List.mem_finRange, true_implies, InBox]
  refine forall_congr' fun i => ?_
  simp

theorem incLoop_spec (r : Range n) :
    ∀ (d : ℕ) (hd : d ≤ n) (p : Idx n), InBoxK r.lo r.hi p d →
      (∀ i : Fin n, d ≤ i.1 → (RangeIter.incLoop r d hd p).1 i = p i) ∧
      ((RangeIter.incLoop r d hd p).2 = false →
        InBoxK r.lo r.hi (RangeIter.incLoop r d hd p).1 d ∧
        pre r.lo r.hi (RangeIter.incLoop r d hd p).1 d hd = pre r.lo r.hi p d hd + 1) ∧
      ((RangeIter.incLoop r d hd p).2 = true →
        (∀ i : Fin n, i.1 < d → (RangeIter.incLoop r d hd p).1 i = r.lo i) ∧
        pre r.lo r.hi p d hd + 1 = vol r.lo r.hi d hd)
  | 0, _, p, _ => by
    refine ⟨fun _ _ => rfl, fun h => by simp [RangeIter.incLoop] at h, fun _ => ⟨fun i hi => by omega, ?_⟩⟩
    simp [pre, vol]
  | d + 1, hd, p, hp => by
    have hb := hp ⟨d, hd⟩ (by simp)
    rw [RangeIter.incLoop]
    simp only [Function.update_self, Function.update_idem]
    by_cases hc : p ⟨d, hd⟩ + 1 > r.hi ⟨d, hd⟩
    · rw [if_pos hc]
      have hq : InBoxK r.lo r.hi (update p ⟨d, hd⟩ (r.lo ⟨d, hd⟩)) d := by
        intro i hi
        rw [update_of_ne (by intro h; rw [h] at hi; simp at hi)]
        exact hp i (by omega)
      obtain ⟨h1, h2, h3⟩ := incLoop_spec r d (Nat.le_of_succ_le hd) _ hq
      set res := RangeIter.incLoop r d (Nat.le_of_succ_le hd) (update p ⟨d, hd⟩ (r.lo ⟨d, hd⟩)) with hres
      have hlast : res.1 ⟨d, hd⟩ = r.lo ⟨d, hd⟩ := by
        rw [h1 ⟨d, hd⟩ le_rfl, update_self]
      have hpre : pre r.lo r.hi (update p ⟨d, hd⟩ (r.lo ⟨d, hd⟩)) d (Nat.le_of_succ_le hd)
          = pre r.lo r.hi p d (Nat.le_of_succ_le hd) := by
        apply pre_congr
        intro i hi
        rw [update_of_ne (by intro h; rw [h] at hi; simp at hi)]
      have hE : extent r.lo r.hi ⟨d, hd⟩ = r.hi ⟨d, hd⟩ - r.lo ⟨d, hd⟩ + 1 := rfl
      refine ⟨fun i hi => ?_, fun hf => ⟨fun i hi => ?_, ?_⟩, fun ht => ⟨fun i hi => ?_, ?_⟩⟩
      · rw [h1 i (by omega), update_of_ne (by intro h; rw [h] at hi; simp at hi)]
      · by_cases hid : i = ⟨d, hd⟩
        · subst hid; rw [hlast]; omega
        · have : i.1 ≠ d := fun hcc => hid (Fin.ext hcc)
          exact (h2 hf).1 i (by omega)
      · simp only [pre]
        rw [(h2 hf).2, hlast, hpre, hE]
        have : p ⟨d, hd⟩ = r.hi ⟨d, hd⟩ := by omega
        rw [this]; ring
      · by_cases hid : i = ⟨d, hd⟩
        · subst hid; rw [hlast]
        · have : i.1 ≠ d := fun hcc => hid (Fin.ext hcc)
          exact (h3 ht).1 i (by omega)
      · simp only [pre, vol]
        rw [← (h3 ht).2, hpre, hE]
        have : p ⟨d, hd⟩ = r.hi ⟨d, hd⟩ := by omega
        rw [this]; ring
    · rw [if_neg hc]
      refine ⟨fun i hi => ?_, fun _ => ⟨fun i hi => ?_, ?_⟩, fun h => by simp at h⟩
      · simp only
        rw [update_of_ne (by intro h; rw [h] at hi; simp at hi)]
      · by_cases hid : i = ⟨d, hd⟩
        · subst hid; simp only [update_self]; omega
        · simp only; rw [update_of_ne hid]; exact hp i hi
      · simp only [pre, update_self]
        rw [pre_congr (q := p)]
        · ring
        · intro i hi
          rw [update_of_ne (by intro h; rw [h] at hi; simp at hi)]

theorem iterLoop_unique {r : Range n} {it : RangeIter n} {l l' : List (Idx n)}
    (h : r.IterLoop it l) (h' : r.IterLoop it l') : l = l' := by
  induction h generalizing l' with
  | done he =>
    cases h' with
    | done _ => rfl
    | step hne _ => exact absurd he hne
  | step hne _ ih =>
    cases h' with
    | done he => exact absurd he hne
    | step _ hl => rw [ih hl]

/-- from a position in the box, the loop visits this and all following positions -/
theorem iterLoop_from (r : Range n) (m : ℕ) :
    ∀ p : Idx n, InBox r.lo r.hi p → vol r.lo r.hi n le_rfl - pre r.lo r.hi p n le_rfl ≤ m →
      ∃ l, r.IterLoop ⟨p, false⟩ l ∧
        Enumerates LexLt (fun q => InBox r.lo r.hi q ∧ pre r.lo r.hi p n le_rfl ≤ pre r.lo r.hi q n le_rfl) l := by
  induction m with
  | zero =>
    intro p hp hm
    have := pre_bounds n le_rfl (inBoxK_of_inBox hp n)
    omega
  | succ m ih =>
    intro p hp hm
    have hpb := pre_bounds n le_rfl (inBoxK_of_inBox hp n)
    obtain ⟨-, h2, h3⟩ := incLoop_spec r n le_rfl p (inBoxK_of_inBox hp n)
    have hne : (⟨p, false⟩ : RangeIter n) ≠ r.iterEnd := by
      intro h; have := congrArg RangeIter.atEnd h; simp [Range.iterEnd] at this
    cases hb : (RangeIter.incLoop r n le_rfl p).2 with
    | true =>
      have h3 := h3 hb
      refine ⟨[p], Range.IterLoop.step hne (Range.IterLoop.done ?_), ⟨by simp, fun q => ?_, by simp⟩⟩
      · have : (RangeIter.incLoop r n le_rfl p).1 = r.lo := funext fun i => h3.1 i i.2
        simp [RangeIter.increment, Range.iterEnd, hb, this]
      · simp only [List.mem_singleton]
        constructor
        · rintro rfl; exact ⟨hp, le_rfl⟩
        · rintro ⟨hq, hle⟩
          have := pre_bounds n le_rfl (inBoxK_of_inBox hq n)
          exact pre_injective hq hp (by omega)
    | false =>
      have h2 := h2 hb
      obtain ⟨l, hl1, hl2⟩ := ih _ (inBox_of_inBoxK h2.1) (by rw [h2.2]; push_cast at hm ⊢; omega)
      have hnot : ∀ q ∈ l, pre r.lo r.hi p n le_rfl < pre r.lo r.hi q n le_rfl := by
        intro q hq
        have := ((hl2.mem_iff q).mp hq).2
        rw [h2.2] at this; omega
      refine ⟨p :: l, Range.IterLoop.step hne ?_, ⟨?_, fun q => ?_, ?_⟩⟩
      · simpa [RangeIter.increment, hb] using hl1
      · rw [List.pairwise_cons]
        refine ⟨fun q hq => ?_, hl2.sorted⟩
        exact (lexLt_iff_pre hp ((hl2.mem_iff q).mp hq).1).mpr (hnot q hq)
      · rw [List.mem_cons, hl2.mem_iff, h2.2]
        constructor
        · rintro (rfl | ⟨h, h'⟩)
          · exact ⟨hp, le_rfl⟩
          · exact ⟨h, by omega⟩
        · rintro ⟨h, h'⟩
          by_cases hpq : pre r.lo r.hi p n le_rfl = pre r.lo r.hi q n le_rfl
          · exact Or.inl (pre_injective hp h hpq).symm
          · exact Or.inr ⟨h, by omega⟩
      · rw [List.nodup_cons]
        refine ⟨fun h => ?_, hl2.nodup⟩
        have := hnot p h
        omega

/-! ## forEach, C order -/

/-- the positions visited by the C-order recursion -/
def enumC (r : Range n) : (dim : ℕ) → dim ≤ n → Idx n → List (Idx n)
  | 0, _, pos => [pos]
  | dim + 1, h, pos =>
    (intList (r.lo ⟨n - (dim + 1), by omega⟩) (r.hi ⟨n - (dim + 1), by omega⟩)).flatMap fun x =>
      enumC r dim (Nat.le_of_succ_le h) (update pos ⟨n - (dim + 1), by omega⟩ x)

theorem enumC_congr (r : Range n) :
    ∀ (dim : ℕ) (h : dim ≤ n) (p q : Idx n), (∀ i : Fin n, i.1 < n - dim → p i = q i) →
      enumC r dim h p = enumC r dim h q
  | 0, _, p, q, hpq => by
    simp only [enumC]; rw [show p = q from funext fun i => hpq i (by simp)]
  | dim + 1, h, p, q, hpq => by
    simp only [enumC]
    apply List.flatMap_congr
    intro x _
    apply enumC_congr
    intro i hi
    by_cases hc : i = ⟨n - (dim + 1), by omega⟩
    · rw [hc]; simp
    · rw [update_of_ne hc, update_of_ne hc]
      have : i.1 ≠ n - (dim + 1) := fun hcc => hc (Fin.ext hcc)
      exact hpq i (by omega)

theorem forEachCImpl_spec {σ : Type*} (r : Range n) (f : Idx n → σ → σ) :
    ∀ (dim : ℕ) (h : dim ≤ n) (p : Idx n) (s : σ),
      (Range.forEachCImpl r f dim h (p, s)).2 = (enumC r dim h p).foldl (fun s p => f p s) s ∧
      ∀ i : Fin n, i.1 < n - dim → (Range.forEachCImpl r f dim h (p, s)).1 i = p i
  | 0, _, p, s => by simp [Range.forEachCImpl, enumC]
  | dim + 1, h, p, s => by
    rw [Range.forEachCImpl, enumC]
    simp only [loopLE_eq]
    generalize intList _ _ = L
    have key : ∀ (q : Idx n) (s : σ), (∀ i : Fin n, i.1 < n - (dim + 1) → q i = p i) →
        ((L.foldl (fun (s : Idx n × σ) x => Range.forEachCImpl r f dim (Nat.le_of_succ_le h)
            (update s.1 ⟨n - (dim + 1), by omega⟩ x, s.2)) (q, s)).2 =
          (L.flatMap fun x => enumC r dim (Nat.le_of_succ_le h)
            (update p ⟨n - (dim + 1), by omega⟩ x)).foldl (fun s p => f p s) s ∧
        ∀ i : Fin n, i.1 < n - (dim + 1) → (L.foldl (fun (s : Idx n × σ) x => Range.forEachCImpl r f dim (Nat.le_of_succ_le h)
            (update s.1 ⟨n - (dim + 1), by omega⟩ x, s.2)) (q, s)).1 i = p i) := by
      induction L with
      | nil => intro q s hq; exact ⟨rfl, hq⟩
      | cons x L ih =>
        intro q s hq
        obtain ⟨i1, i2⟩ := forEachCImpl_spec r f dim (Nat.le_of_succ_le h)
          (update q ⟨n - (dim + 1), by omega⟩ x) s
        simp only [List.foldl_cons, List.flatMap_cons, List.foldl_append]
        set res := Range.forEachCImpl r f dim (Nat.le_of_succ_le h)
          (update q ⟨n - (dim + 1), by omega⟩ x, s) with hres
        have hq' : ∀ i : Fin n, i.1 < n - (dim + 1) → res.1 i = p i := by
          intro i hi
          rw [i2 i (by omega), update_of_ne (by intro hc; rw [hc] at hi; simp at hi), hq i hi]
        have := ih res.1 res.2 hq'
        rw [show (res.1, res.2) = res from rfl] at this
        refine ⟨?_, this.2⟩
        rw [this.1, i1]
        congr 2
        apply enumC_congr
        intro i hi
        by_cases hc : i = ⟨n - (dim + 1), by omega⟩
        · rw [hc]; simp
        · rw [update_of_ne hc, update_of_ne hc]
          have : i.1 ≠ n - (dim + 1) := fun hcc => hc (Fin.ext hcc)
          exact hq i (by omega)
    exact key p s (fun _ _ => rfl)

theorem mem_enumC (r : Range n) :
    ∀ (dim : ℕ) (h : dim ≤ n) (p q : Idx n), q ∈ enumC r dim h p ↔
      (∀ i : Fin n, i.1 < n - dim → q i = p i) ∧
      ∀ i : Fin n, n - dim ≤ i.1 → r.lo i ≤ q i ∧ q i ≤ r.hi i
  | 0, _, p, q => by
    simp only [enumC, List.mem_singleton, Nat.sub_zero]
    constructor
    · rintro rfl; exact ⟨fun _ _ => rfl, fun i hi => absurd i.2 (by omega)⟩
    · rintro ⟨h, -⟩; exact funext fun i => h i i.2
  | dim + 1, h, p, q => by
    simp only [enumC, List.mem_flatMap, mem_intList]
    constructor
    · rintro ⟨x, hx, hq⟩
      rw [mem_enumC] at hq
      have hlast : q ⟨n - (dim + 1), by omega⟩ = x := by
        rw [hq.1 _ (by simp only; omega), update_self]
      refine ⟨fun i hi => ?_, fun i hi => ?_⟩
      · rw [hq.1 i (by omega), update_of_ne (by intro hc; rw [hc] at hi; simp at hi)]
      · by_cases hc : i = ⟨n - (dim + 1), by omega⟩
        · rw [hc, hlast]; exact hx
        · have : i.1 ≠ n - (dim + 1) := fun hcc => hc (Fin.ext hcc)
          exact hq.2 i (by omega)
    · rintro ⟨h1, h2⟩
      refine ⟨q ⟨n - (dim + 1), by omega⟩, h2 _ le_rfl, ?_⟩
      rw [mem_enumC]
      refine ⟨fun i hi => ?_, fun i hi => h2 i (by omega)⟩
      by_cases hc : i = ⟨n - (dim + 1), by omega⟩
      · rw [hc]; simp
      · rw [update_of_ne hc]
        have : i.1 ≠ n - (dim + 1) := fun hcc => hc (Fin.ext hcc)
        exact h1 i (by omega)

theorem pairwise_enumC (r : Range n) :
    ∀ (dim : ℕ) (h : dim ≤ n) (p : Idx n), (enumC r dim h p).Pairwise LexLt
  | 0, _, p => by simp [enumC]
  | dim + 1, h, p => by
    rw [enumC, List.pairwise_flatMap]
    refine ⟨fun x _ => pairwise_enumC r dim _ _, ?_⟩
    refine List.Pairwise.imp ?_ (pairwise_intList _ _)
    intro a b hab u hu v hv
    rw [mem_enumC] at hu hv
    refine ⟨⟨n - (dim + 1), by omega⟩, fun j hj => ?_, ?_⟩
    · have hj' : j.1 < n - (dim + 1) := hj
      rw [hu.1 j (by omega), hv.1 j (by omega),
        update_of_ne (by intro hc; rw [hc] at hj'; simp at hj'),
        update_of_ne (by intro hc; rw [hc] at hj'; simp at hj')]
    · rw [hu.1 _ (by simp only; omega), hv.1 _ (by simp only; omega), update_self, update_self]
      exact hab

/-! ## forEach, Fortran order -/

/-- the positions visited by the Fortran-order recursion -/
def enumF (r : Range n) : (rank : ℕ) → rank ≤ n → Idx n → List (Idx n)
  | 0, _, pos => [pos]
  | rank + 1, h, pos =>
    (intList (r.lo ⟨rank, h⟩) (r.hi ⟨rank, h⟩)).flatMap fun x =>
      enumF r rank (Nat.le_of_succ_le h) (update pos ⟨rank, h⟩ x)

theorem enumF_congr (r : Range n) :
    ∀ (rank : ℕ) (h : rank ≤ n) (p q : Idx n), (∀ i : Fin n, rank ≤ i.1 → p i = q i) →
      enumF r rank h p = enumF r rank h q
  | 0, _, p, q, hpq => by
    simp only [enumF]; rw [show p = q from funext fun i => hpq i (by simp)]
  | rank + 1, h, p, q, hpq => by
    simp only [enumF]
    apply List.flatMap_congr
    intro x _
    apply enumF_congr
    intro i hi
    by_cases hc : i = ⟨rank, h⟩
    · rw [hc]; simp
    · rw [update_of_ne hc, update_of_ne hc]
      have : i.1 ≠ rank := fun hcc => hc (Fin.ext hcc)
      exact hpq i (by omega)

theorem forEachFImpl_spec {σ : Type*} (r : Range n) (f : Idx n → σ → σ) :
    ∀ (rank : ℕ) (h : rank ≤ n) (p : Idx n) (s : σ),
      (Range.forEachFImpl r f rank h (p, s)).2 = (enumF r rank h p).foldl (fun s p => f p s) s ∧
      ∀ i : Fin n, rank ≤ i.1 → (Range.forEachFImpl r f rank h (p, s)).1 i = p i
  | 0, _, p, s => by simp [Range.forEachFImpl, enumF]
  | rank + 1, h, p, s => by
    rw [Range.forEachFImpl, enumF]
    simp only [loopLE_eq]
    generalize intList _ _ = L
    have key : ∀ (q : Idx n) (s : σ), (∀ i : Fin n, rank + 1 ≤ i.1 → q i = p i) →
        ((L.foldl (fun (s : Idx n × σ) x => Range.forEachFImpl r f rank (Nat.le_of_succ_le h)
            (update s.1 ⟨rank, h⟩ x, s.2)) (q, s)).2 =
          (L.flatMap fun x => enumF r rank (Nat.le_of_succ_le h)
            (update p ⟨rank, h⟩ x)).foldl (fun s p => f p s) s ∧
        ∀ i : Fin n, rank + 1 ≤ i.1 → (L.foldl (fun (s : Idx n × σ) x => Range.forEachFImpl r f rank (Nat.le_of_succ_le h)
            (update s.1 ⟨rank, h⟩ x, s.2)) (q, s)).1 i = p i) := by
      induction L with
      | nil => intro q s hq; exact ⟨rfl, hq⟩
      | cons x L ih =>
        intro q s hq
        obtain ⟨i1, i2⟩ := forEachFImpl_spec r f rank (Nat.le_of_succ_le h)
          (update q ⟨rank, h⟩ x) s
        simp only [List.foldl_cons, List.flatMap_cons, List.foldl_append]
        set res := Range.forEachFImpl r f rank (Nat.le_of_succ_le h)
          (update q ⟨rank, h⟩ x, s) with hres
        have hq' : ∀ i : Fin n, rank + 1 ≤ i.1 → res.1 i = p i := by
          intro i hi
          rw [i2 i (by omega), update_of_ne (by intro hc; rw [hc] at hi; simp at hi), hq i hi]
        have := ih res.1 res.2 hq'
        rw [show (res.1, res.2) = res from rfl] at this
        refine ⟨?_, this.2⟩
        rw [this.1, i1]
        congr 2
        apply enumF_congr
        intro i hi
        by_cases hc : i = ⟨rank, h⟩
        · rw [hc]; simp
        · rw [update_of_ne hc, update_of_ne hc]
          have : i.1 ≠ rank := fun hcc => hc (Fin.ext hcc)
          exact hq i (by omega)
    exact key p s (fun _ _ => rfl)

theorem mem_enumF (r : Range n) :
    ∀ (rank : ℕ) (h : rank ≤ n) (p q : Idx n), q ∈ enumF r rank h p ↔
      (∀ i : Fin n, rank ≤ i.1 → q i = p i) ∧
      ∀ i : Fin n, i.1 < rank → r.lo i ≤ q i ∧ q i ≤ r.hi i
  | 0, _, p, q => by
    simp only [enumF, List.mem_singleton]
    constructor
    · rintro rfl; exact ⟨fun _ _ => rfl, fun i hi => absurd hi (by omega)⟩
    · rintro ⟨h, -⟩; exact funext fun i => h i (Nat.zero_le _)
  | rank + 1, h, p, q => by
    simp only [enumF, List.mem_flatMap, mem_intList]
    constructor
    · rintro ⟨x, hx, hq⟩
      rw [mem_enumF] at hq
      have hlast : q ⟨rank, h⟩ = x := by
        rw [hq.1 _ le_rfl, update_self]
      refine ⟨fun i hi => ?_, fun i hi => ?_⟩
      · rw [hq.1 i (by omega), update_of_ne (by intro hc; rw [hc] at hi; simp at hi)]
      · by_cases hc : i = ⟨rank, h⟩
        · rw [hc, hlast]; exact hx
        · have : i.1 ≠ rank := fun hcc => hc (Fin.ext hcc)
          exact hq.2 i (by omega)
    · rintro ⟨h1, h2⟩
      refine ⟨q ⟨rank, h⟩, h2 _ (Nat.lt_succ_self _), ?_⟩
      rw [mem_enumF]
      refine ⟨fun i hi => ?_, fun i hi => h2 i (by omega)⟩
      by_cases hc : i = ⟨rank, h⟩
      · rw [hc]; simp
      · rw [update_of_ne hc]
        have : i.1 ≠ rank := fun hcc => hc (Fin.ext hcc)
        exact h1 i (by omega)

theorem pairwise_enumF (r : Range n) :
    ∀ (rank : ℕ) (h : rank ≤ n) (p : Idx n), (enumF r rank h p).Pairwise ColexLt
  | 0, _, p => by simp [enumF]
  | rank + 1, h, p => by
    rw [enumF, List.pairwise_flatMap]
    refine ⟨fun x _ => pairwise_enumF r rank _ _, ?_⟩
    refine List.Pairwise.imp ?_ (pairwise_intList _ _)
    intro a b hab u hu v hv
    rw [mem_enumF] at hu hv
    refine ⟨⟨rank, h⟩, fun j hj => ?_, ?_⟩
    · have hj' : rank < j.1 := hj
      rw [hu.1 j (by omega), hv.1 j (by omega),
        update_of_ne (by intro hc; rw [hc] at hj'; simp at hj'),
        update_of_ne (by intro hc; rw [hc] at hj'; simp at hj')]
    · rw [hu.1 _ le_rfl, hv.1 _ le_rfl, update_self, update_self]
      exact hab

end Schnek.Lemma

namespace Schnek.Lemma

open Schnek Schnek.Spec Function

variable {n : ℕ}

/-! ## the iterator on ranges that may be empty -/

/-- the upper corner raised to the lower corner where it is below it -/
def Range.fill (r : Range n) : Range n := ⟨r.lo, fun i => max (r.lo i) (r.hi i)⟩

theorem incLoop_fill (r : Range n) :
    ∀ (d : ℕ) (hd : d ≤ n) (p : Idx n), (∀ i, r.lo i ≤ p i) →
      RangeIter.incLoop (Range.fill r) d hd p = RangeIter.incLoop r d hd p
  | 0, _, _, _ => rfl
  | d + 1, hd, p, hp => by
    have h1 := hp ⟨d, hd⟩
    rw [RangeIter.incLoop, RangeIter.incLoop]
    simp only [update_self, update_idem, Range.fill]
    have hiff : (p ⟨d, hd⟩ + 1 > max (r.lo ⟨d, hd⟩) (r.hi ⟨d, hd⟩)) ↔ (p ⟨d, hd⟩ + 1 > r.hi ⟨d, hd⟩) := by
      omega
    by_cases hc : p ⟨d, hd⟩ + 1 > r.hi ⟨d, hd⟩
    · rw [if_pos hc, if_pos (hiff.mpr hc)]
      apply incLoop_fill r d
      intro i
      by_cases hi : i = ⟨d, hd⟩
      · subst hi; simp
      · rw [update_of_ne hi]; exact hp i
    · rw [if_neg hc, if_neg (fun h => hc (hiff.mp h))]

theorem incLoop_ge (r : Range n) :
    ∀ (d : ℕ) (hd : d ≤ n) (p : Idx n), (∀ i, r.lo i ≤ p i) →
      ∀ i, r.lo i ≤ (RangeIter.incLoop r d hd p).1 i
  | 0, _, _, hp => hp
  | d + 1, hd, p, hp => by
    have h1 := hp ⟨d, hd⟩
    rw [RangeIter.incLoop]
    simp only [update_self, update_idem]
    by_cases hc : p ⟨d, hd⟩ + 1 > r.hi ⟨d, hd⟩
    · rw [if_pos hc]
      apply incLoop_ge r d
      intro i
      by_cases hi : i = ⟨d, hd⟩
      · subst hi; simp
      · rw [update_of_ne hi]; exact hp i
    · rw [if_neg hc]
      intro i
      by_cases hi : i = ⟨d, hd⟩
      · subst hi; simp only [update_self]; omega
      · simp only; rw [update_of_ne hi]; exact hp i

theorem iterLoop_of_fill (r : Range n) {it : RangeIter n} {l : List (Idx n)}
    (h : (Range.fill r).IterLoop it l) (hp : ∀ i, r.lo i ≤ it.pos i) : r.IterLoop it l := by
  induction h with
  | done he => exact Range.IterLoop.done he
  | step hne _ ih =>
    refine Range.IterLoop.step hne ?_
    rename_i it l _
    have heq : it.increment (Range.fill r) = it.increment r := by
      simp only [RangeIter.increment]; rw [incLoop_fill r n le_rfl it.pos hp]
    rw [← heq]
    apply ih
    rw [heq]
    exact incLoop_ge r n le_rfl it.pos hp

end Schnek.Lemma
