import Verif.Lemma.MpiAccumulate
import Verif.Props.Mpi

/-!
# C56: `accumulate` of the MPI subdivision
-/

namespace Schnek.Props

open Schnek Schnek.Spec Schnek.Mpi Schnek.Lemma.Exchange Schnek.Lemma.Mpi Schnek.Lemma.MpiAccumulate Function

variable {n : ℕ} {T : Type}

/-- the sum over the unrolled processes is the sum over all processes and all their cells that are images -/
private theorem sum_images [AddCommMonoid T] {S : Setup n} (hS : Good S) (hD : ∀ i, 0 < S.dims i) (W : World S T) (p : Idx n) :
    ∑ m ∈ Fintype.piFinset (fun i => copies S i (p i)), val hD W m p =
      ∑ c' : Coord S, ∑ q ∈ (Finset.Icc (bounds S c').size.lo (bounds S c').size.hi).filter
        (fun q => ∀ i, (S.globalHi i + 1) ∣ q i - p i), (W c').cell q := by
  have hN : ∀ i, 0 < S.globalHi i + 1 := fun i => by
    have := delta_le hS hD i
    have := hS.delta
    omega
  have hDz : ∀ i, (0 : ℤ) < S.dims i := fun i => by have := hD i; omega
  -- the unrolled process for a process and an image
  let back : Coord S → Idx n → (Fin n → ℤ) := fun c q i =>
    (c i).1 + (S.dims i : ℤ) * ((p i - q i) / (S.globalHi i + 1))
  have hmod : ∀ c q i, back c q i % (S.dims i : ℤ) = (c i).1 ∧
      back c q i / (S.dims i : ℤ) = (p i - q i) / (S.globalHi i + 1) := fun c q i => by
    have := (c i).2
    have := (Int.ediv_emod_unique (a := back c q i) (b := S.dims i) (r := (c i).1)
      (q := (p i - q i) / (S.globalHi i + 1)) (hDz i)).mpr ⟨rfl, by omega, by omega⟩
    exact ⟨this.2, this.1⟩
  have hcof : ∀ c q, cof hD (back c q) = c := fun c q => by
    funext i
    apply Fin.ext
    rw [cof_val, (hmod c q i).1]
    rfl
  have hpos : ∀ c q, (∀ i, (S.globalHi i + 1) ∣ q i - p i) → pos S (back c q) p = q := fun c q h => by
    funext i
    rw [pos, (hmod c q i).2, Int.mul_ediv_cancel']
    · ring
    · have := h i
      rw [← neg_sub] at this
      exact (Int.dvd_neg).mp this
  have hback : ∀ m : Fin n → ℤ, back (cof hD m) (pos S m p) = m := fun m => by
    funext i
    show ((cof hD m i).1 : ℤ) + _ = _
    have h1 := Int.emod_nonneg (m i) (hDz i).ne'
    have h2 := Int.emod_add_mul_ediv (m i) (S.dims i)
    rw [cof_val, pos, sub_sub_cancel, Int.mul_ediv_cancel_left _ (hN i).ne']
    omega
  have hmem : ∀ m : Fin n → ℤ, m ∈ Fintype.piFinset (fun i => copies S i (p i)) ↔
      pos S m p ∈ Finset.Icc (bounds S (cof hD m)).size.lo (bounds S (cof hD m)).size.hi := fun m => by
    rw [Fintype.mem_piFinset, Finset.mem_Icc]
    simp only [mem_copies hS hD]
    rw [← box_iff hD m p]
    exact ⟨fun h => ⟨fun i => (h i).1, fun i => (h i).2⟩, fun h i => ⟨h.1 i, h.2 i⟩⟩
  rw [Finset.sum_sigma']
  refine Finset.sum_bij' (fun m _ => (⟨cof hD m, pos S m p⟩ : (_ : Coord S) × Idx n)) (fun s _ => back s.1 s.2) ?_ ?_ ?_ ?_ ?_
  · intro m hm
    rw [Finset.mem_sigma, Finset.mem_filter]
    refine ⟨Finset.mem_univ _, (hmem m).mp hm, fun i => ?_⟩
    show _ ∣ pos S m p i - p i
    rw [pos, sub_sub_cancel_left, Int.dvd_neg]
    exact Dvd.intro _ rfl
  · rintro ⟨c, q⟩ h
    rw [Finset.mem_sigma, Finset.mem_filter] at h
    rw [hmem, hcof, hpos c q h.2.2]
    exact h.2.1
  · intro m _
    exact hback m
  · rintro ⟨c, q⟩ h
    rw [Finset.mem_sigma, Finset.mem_filter] at h
    show (⟨_, _⟩ : (_ : Coord S) × Idx n) = _
    rw [hcof, hpos c q h.2.2]
  · intro m _
    rfl

/-- **C56** `accumulate(grid)`, called by all processes, terminates without access outside of a grid or a buffer. Afterwards a cell
of the local domain of a process holds the sum over all cells of the local domains of all processes, ghost cells included, which
stand for the same cell of the periodic global domain. This holds for every cell if the inner width of each process is at least
twice the ghost width; if the inner width is only known to be at least the ghost width in some dimension, it holds for the cells
which are not lower ghost cells in that dimension, in particular for all inner cells. Cells outside of the local domain are
unchanged. -/
theorem C56_accumulate_sums_images [AddCommMonoid T] (S : Setup n) (hδ : 1 ≤ S.delta)
    (hw : ∀ c i, S.delta ≤ innerWidth (bounds S c) i)
    (hfit : ∀ c, S.delta * ∏ i, ((bounds S c).size.hi i - (bounds S c).size.lo i + 1) < 2 ^ 31)
    (W : World S T) (hcov : ∀ c, ∀ p ∈ box (bounds S c).size, (W c).range.inside p = true) :
    ∃ W' : World S T, (∀ W'', Mpi.Accumulate S W W'' ↔ W'' = W') ∧ (∀ c, (W' c).range = (W c).range) ∧
      (∀ c, ∀ p ∈ box (bounds S c).size,
        (∀ i, (∀ c' : Coord S, 2 * S.delta ≤ innerWidth (bounds S c') i) ∨ (bounds S c).innerDomain.lo i ≤ p i) →
        (W' c).cell p = ∑ c' : Coord S, ∑ q ∈ (Finset.Icc (bounds S c').size.lo (bounds S c').size.hi).filter
          (fun q => ∀ i, (S.globalHi i + 1) ∣ q i - p i), (W c').cell q) ∧
      (∀ c p, p ∉ box (bounds S c).size → (W' c).cell p = (W c).cell p) := by
  have hS : Good S := ⟨hδ, hw, hfit⟩
  by_cases hD : ∀ i, 0 < S.dims i
  swap
  · -- no processes
    push Not at hD
    obtain ⟨i, hi⟩ := hD
    have hno : ∀ c : Coord S, False := fun c => by have := (c i).2; omega
    have hW : ∀ W₁ W₂ : World S T, W₁ = W₂ := fun W₁ W₂ => funext fun c => (hno c).elim
    have hstep : ∀ (d : Fin n) (W₁ W₂ : World S T), Mpi.AccumulateDim S d W₁ W₂ := fun d W₁ W₂ =>
      ⟨W₁, ⟨fun _ => [], fun _ => [], fun _ => 0, W₁, fun c => (hno c).elim, fun c => (hno c).elim, fun c => (hno c).elim,
        fun c => (hno c).elim, fun c => (hno c).elim, fun c => (hno c).elim⟩,
        ⟨fun _ => [], fun _ => [], fun _ => 0, W₁, fun c => (hno c).elim, fun c => (hno c).elim, fun c => (hno c).elim,
        fun c => (hno c).elim, fun c => (hno c).elim, fun c => (hno c).elim⟩⟩
    have hall : ∀ (ds : List (Fin n)) (W₁ W₂ : World S T), Mpi.OverDims (Mpi.AccumulateDim S) ds W₁ W₂ := by
      intro ds
      induction ds with
      | nil => intro W₁ W₂; exact hW _ _
      | cons d ds ih => intro W₁ W₂; exact ⟨W₁, hstep d _ _, ih _ _⟩
    exact ⟨W, fun W'' => ⟨fun _ => hW _ _, fun _ => hall _ _ _⟩, fun c => (hno c).elim, fun c => (hno c).elim,
      fun c => (hno c).elim⟩
  have hust : ∀ i, (∀ c' : Coord S, 2 * S.delta ≤ innerWidth (bounds S c') i) →
      ∀ x, ust S i x + 2 * S.delta ≤ ust S i (x + 1) := fun i h x => by
    have h := h (cof hD (fun _ => x))
    rw [innerWidth_eq, cof_val] at h
    rw [ust_succ hD, ust]
    linarith
  obtain ⟨W', D', e, hD', i1, i2, i3⟩ := mpi_overDims_inv (Mpi.AccumulateDim S)
    (fun D W' => (∀ c, (W' c).range = (W c).range) ∧
      (∀ m p, UBox S m p → (∀ i ∈ D, (∀ x, ust S i x + 2 * S.delta ≤ ust S i (x + 1)) ∨ ust S i (m i) ≤ p i) →
        val hD W' m p = ∑ m' ∈ Fintype.piFinset (fun i => if i ∈ D then copies S i (p i) else {m i}), val hD W m' p) ∧
      (∀ c p, p ∉ box (bounds S c).size → (W' c).cell p = (W c).cell p))
    (by
      rintro D d W₁ hd ⟨h1, h2, h3⟩
      obtain ⟨W', e, r, a1, a2⟩ := accumulateDim_spec hS hD d W₁ (fun c p hp => by rw [h1]; exact hcov c p hp)
      refine ⟨W', e, fun c => (r c).trans (h1 c), fun m p hb hc => ?_, fun c p hp => ?_⟩
      · rw [a1 m p hb (hc d (Finset.mem_insert_self _ _))]
        have hx : ∀ x ∈ copies S d (p d), val hD W₁ (update m d x) p =
            ∑ m' ∈ Fintype.piFinset (fun i => if i ∈ D then copies S i (p i) else {update m d x i}), val hD W m' p := by
          intro x hx
          rw [mem_copies hS hD] at hx
          refine h2 _ p (fun i => ?_) (fun i hi => ?_)
          · by_cases hid : i = d
            · subst hid; rw [update_self]; exact hx
            · rw [update_of_ne hid]; exact hb i
          · have hid : i ≠ d := fun h => hd (h ▸ hi)
            rw [update_of_ne hid]
            exact hc i (Finset.mem_insert_of_mem hi)
        rw [Finset.sum_congr rfl hx, ← Finset.sum_fiberwise_of_maps_to
          (s := Fintype.piFinset (fun i => if i ∈ insert d D then copies S i (p i) else {m i})) (t := copies S d (p d))
          (g := fun m' => m' d) (fun m' hm' => by
            rw [Fintype.mem_piFinset] at hm'
            have := hm' d
            rwa [if_pos (Finset.mem_insert_self _ _)] at this)]
        refine Finset.sum_congr rfl fun x hx => Finset.sum_congr ?_ fun _ _ => rfl
        ext m'
        rw [Finset.mem_filter, Fintype.mem_piFinset, Fintype.mem_piFinset]
        constructor
        · intro h
          have hmd : m' d = x := by
            have := h d
            rw [if_neg hd, update_self, Finset.mem_singleton] at this
            exact this
          refine ⟨fun i => ?_, hmd⟩
          by_cases hid : i = d
          · subst hid
            rw [if_pos (Finset.mem_insert_self _ _), hmd]
            exact hx
          · have := h i
            rw [update_of_ne hid] at this
            simpa only [Finset.mem_insert, hid, false_or] using this
        · rintro ⟨h, hmd⟩ i
          by_cases hid : i = d
          · subst hid
            rw [if_neg hd, update_self, Finset.mem_singleton]
            exact hmd
          · have := h i
            rw [update_of_ne hid]
            simpa only [Finset.mem_insert, hid, false_or] using this
      · rw [a2 c p hp]
        exact h3 c p hp)
    (List.finRange n) ∅ W (List.nodup_finRange n) (by simp) ⟨fun _ => rfl, fun m p _ _ => by
      have : Fintype.piFinset (fun i => if i ∈ (∅ : Finset (Fin n)) then copies S i (p i) else {m i}) = {m} := by
        ext m'
        rw [Fintype.mem_piFinset, Finset.mem_singleton]
        simp only [Finset.notMem_empty, if_false, Finset.mem_singleton]
        exact funext_iff.symm
      rw [this, Finset.sum_singleton], fun _ _ _ => rfl⟩
  refine ⟨W', e, i1, fun c p hp hc => ?_, i3⟩
  have hmod : ∀ i, ((c i).1 : ℤ) % (S.dims i : ℤ) = (c i).1 ∧ ((c i).1 : ℤ) / (S.dims i : ℤ) = 0 := fun i => by
    have := (c i).2
    exact ⟨Int.emod_eq_of_lt (by omega) (by omega), Int.ediv_eq_zero_of_lt (by omega) (by omega)⟩
  have hcof : cof hD (fun i => ((c i).1 : ℤ)) = c := by
    funext i
    apply Fin.ext
    rw [cof_val, (hmod i).1]
    rfl
  have hpos : pos S (fun i => ((c i).1 : ℤ)) p = p := by
    funext i
    rw [pos, (hmod i).2]
    ring
  have hlo : ∀ i, ust S i ((c i).1 : ℤ) = start S i (c i).1 := fun i => by
    rw [ust, (hmod i).1, (hmod i).2, mul_zero, add_zero]
    rfl
  have h := i2 (fun i => ((c i).1 : ℤ)) p ((box_iff hD _ p).mp (by rw [hcof, hpos]; exact hp)) (fun i _ => by
    rcases hc i with h | h
    · exact Or.inl (hust i h)
    · right
      rw [hlo]
      rwa [inner_lo] at h)
  rw [val, hcof, hpos] at h
  rw [h, ← sum_images hS hD W p]
  refine Finset.sum_congr ?_ fun _ _ => rfl
  congr 1
  funext i
  rw [if_pos ((hD' i).mpr (Or.inr (List.mem_finRange i)))]

/-- **C56** afterwards all copies of a cell hold the same value -/
theorem C56_copies_agree [AddCommMonoid T] (S : Setup n) (hδ : 1 ≤ S.delta)
    (hw : ∀ c i, 2 * S.delta ≤ innerWidth (bounds S c) i)
    (hfit : ∀ c, S.delta * ∏ i, ((bounds S c).size.hi i - (bounds S c).size.lo i + 1) < 2 ^ 31)
    (W W' : World S T) (hcov : ∀ c, ∀ p ∈ box (bounds S c).size, (W c).range.inside p = true) (h : Mpi.Accumulate S W W')
    (c c' : Coord S) (p q : Idx n) (hp : p ∈ box (bounds S c).size) (hq : q ∈ box (bounds S c').size)
    (himg : ∀ i, (S.globalHi i + 1) ∣ q i - p i) : (W' c).cell p = (W' c').cell q := by
  obtain ⟨W₁, h1, -, h2, -⟩ := C56_accumulate_sums_images S hδ (fun c i => by have := hw c i; omega) hfit W hcov
  obtain rfl := (h1 W').mp h
  rw [h2 c p hp fun i => Or.inl fun c' => hw c' i, h2 c' q hq fun i => Or.inl fun c' => hw c' i]
  refine Finset.sum_congr rfl fun c₀ _ => Finset.sum_congr ?_ fun _ _ => rfl
  refine Finset.filter_congr fun x _ => forall_congr' fun i => ?_
  rw [show x i - p i = (x i - q i) + (q i - p i) by ring]
  exact Int.dvd_add_left (himg i)

/-- non-vacuity of C56: six processes, the widths are at least twice the ghost width, and every cell holds 1 -/
example : let S := exampleSetup
    1 ≤ S.delta ∧ (∀ c i, 2 * S.delta ≤ innerWidth (bounds S c) i) ∧
    (∀ c, S.delta * ∏ i, ((bounds S c).size.hi i - (bounds S c).size.lo i + 1) < 2 ^ 31) ∧
    ∃ W : World S ℕ, (∀ c, ∀ p ∈ box (bounds S c).size, (W c).range.inside p = true) ∧ ∀ c p, (W c).cell p = 1 := by
  intro S
  have hd : S.delta = 1 := rfl
  have hw : ∀ c i, 2 ≤ innerWidth (bounds S c) i ∧ innerWidth (bounds S c) i ≤ 5 := fun c i => by
    have h1 := C24_inner_width S id exampleSetup_initialised c i
    have h2 : (S.globalHi i - 1) / (S.dims i : ℤ) ≤ 3 ∧ 2 ≤ (S.globalHi i - 1) / (S.dims i : ℤ) := by
      fin_cases i <;> decide
    omega
  refine ⟨by decide, fun c i => by rw [hd]; exact (hw c i).1, fun c => ?_,
    fun c => ⟨(bounds S c).size, fun _ => 1⟩, fun c p hp => (C01_inside_iff _ _).mpr hp, fun _ _ => rfl⟩
  have h : ∀ i, (bounds S c).size.hi i - (bounds S c).size.lo i + 1 ≤ 7 ∧
      1 ≤ (bounds S c).size.hi i - (bounds S c).size.lo i + 1 := fun i => by
    have h1 := hw c i
    rw [innerWidth_eq] at h1
    rw [size_hi, size_lo]
    omega
  rw [Fin.prod_univ_two, hd]
  nlinarith [h 0, h 1]

end Schnek.Props
