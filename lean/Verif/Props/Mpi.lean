import Verif.Lemma.Mpi
import Mathlib.Data.Set.Card

/-!
# C23 – C27: the MPI Cartesian subdivision
-/

namespace Schnek.Props

open Schnek Schnek.Spec Schnek.Mpi Schnek.Lemma.Exchange Schnek.Lemma.Mpi Function

variable {n : ℕ} {T : Type}

/-- The local domains are those which `init(lo, hi, delta)` computes in floating point arithmetic, and the numbers are not
extreme. -/
structure Initialised (S : Setup n) (rnd : ℚ → ℚ) : Prop where
  rounding : Rounding rnd
  cut : ∀ i k, S.cut i k = cutOf rnd (S.globalHi i) (S.dims i) k
  high : ∀ i, 1 ≤ S.globalHi i ∧ S.globalHi i < 2 ^ 31
  dims : ∀ i, 1 ≤ S.dims i ∧ S.dims i ≤ 2 ^ 19

/-- monotone sequences cut an interval into pieces -/
private theorem exists_piece (a : ℕ → ℤ) (x : ℤ) : ∀ m : ℕ, a 0 ≤ x → x < a m → ∃ k < m, a k ≤ x ∧ x < a (k + 1)
  | 0, h0, h => absurd h (by omega)
  | m + 1, h0, h => by
    by_cases hm : a m ≤ x
    · exact ⟨m, by omega, hm, h⟩
    · obtain ⟨k, hk, h1⟩ := exists_piece a x m h0 (by omega)
      exact ⟨k, by omega, h1⟩

private theorem mono_of_step {a : ℕ → ℤ} {m : ℕ} (h : ∀ k < m, a k ≤ a (k + 1)) : ∀ {j k : ℕ}, j ≤ k → k ≤ m → a j ≤ a k := by
  intro j k hjk
  induction hjk with
  | refl => intro _; exact le_rfl
  | step h1 ih => intro h2; exact (ih (by omega)).trans (h _ (by omega))

private theorem mem_inner (S : Setup n) (c : Coord S) (p : Idx n) :
    p ∈ box (bounds S c).innerDomain ↔ ∀ i, start S i (c i).1 ≤ p i ∧ p i < start S i ((c i).1 + 1) := by
  constructor
  · intro h i
    have := h i
    rw [inner_lo, inner_hi] at this
    omega
  · intro h i
    have := h i
    rw [inner_lo, inner_hi]
    omega

private theorem tile (S : Setup n) (hd : ∀ i, 1 ≤ S.dims i) (hw : ∀ i, ∀ k < S.dims i, start S i k ≤ start S i (k + 1)) :
    (∀ p, (∀ i, 0 ≤ p i ∧ p i ≤ S.globalHi i) → ∃! c : Coord S, p ∈ box (bounds S c).innerDomain) ∧
    ∀ p (c : Coord S), p ∈ box (bounds S c).innerDomain → ∀ i, 0 ≤ p i ∧ p i ≤ S.globalHi i := by
  constructor
  · intro p hp
    have h : ∀ i, ∃ k : Fin (S.dims i), start S i k.1 ≤ p i ∧ p i < start S i (k.1 + 1) := fun i => by
      obtain ⟨k, hk, h⟩ := exists_piece (start S i) (p i) (S.dims i) (hp i).1
        (by rw [start_dims S i (hd i)]; have := (hp i).2; omega)
      exact ⟨⟨k, hk⟩, h⟩
    choose c hc using h
    refine ⟨c, (mem_inner S c p).mpr hc, fun c' hc' => ?_⟩
    have hc' := (mem_inner S c' p).mp hc'
    funext i
    apply Fin.ext
    have h1 := hc i
    have h2 := hc' i
    by_contra hne
    rcases Nat.lt_or_gt_of_ne hne with h | h
    · have := mono_of_step (hw i) (show (c' i).1 + 1 ≤ (c i).1 by omega) (c i).2.le
      omega
    · have := mono_of_step (hw i) (show (c i).1 + 1 ≤ (c' i).1 by omega) (c' i).2.le
      omega
  · intro p c h i
    rw [mem_inner] at h
    have h1 := mono_of_step (hw i) (Nat.zero_le (c i).1) (c i).2.le
    have h2 := mono_of_step (hw i) (show (c i).1 + 1 ≤ S.dims i from (c i).2) le_rfl
    rw [start_dims S i (hd i)] at h2
    rw [start_zero] at h1
    have := h i
    omega

/-- the cells `0, …, globalHi` are divided among the processes if none has fewer cells than `delta` -/
theorem tile_of_wide (S : Setup n) (hδ : 1 ≤ S.delta) (hw : ∀ c i, S.delta ≤ innerWidth (bounds S c) i) (c₀ : Coord S) :
    (∀ p, (∀ i, 0 ≤ p i ∧ p i ≤ S.globalHi i) → ∃! c : Coord S, p ∈ box (bounds S c).innerDomain) ∧
    ∀ p (c : Coord S), p ∈ box (bounds S c).innerDomain → ∀ i, 0 ≤ p i ∧ p i ≤ S.globalHi i := by
  refine tile S (fun i => by have := (c₀ i).2; omega) fun i k hk => ?_
  have h := hw (update c₀ i ⟨k, hk⟩) i
  rw [innerWidth_eq, update_self] at h
  have h : S.delta ≤ start S i (k + 1) - start S i k := h
  omega

/-- **C23** If the global domain starts at 0, every cell of the global domain lies in the inner domain of exactly one process,
and the inner domains contain no other cells: for any number of dimensions and processes, and whatever the rounding mode. -/
theorem C23_inner_domains_tile_partial (S : Setup n) (rnd : ℚ → ℚ) (hS : Initialised S rnd) (h0 : ∀ i, S.globalLo i = 0) :
    (∀ p ∈ box ⟨S.globalLo, S.globalHi⟩, ∃! c : Coord S, p ∈ box (bounds S c).innerDomain) ∧
    ∀ (c : Coord S), box (bounds S c).innerDomain ⊆ box ⟨S.globalLo, S.globalHi⟩ := by
  have h := tile S (fun i => (hS.dims i).1) fun i k hk => by
    have h1 := (width_bounds S i hS.rounding (hS.cut i) (hS.high i).1 (hS.high i).2 (hS.dims i).2 k hk).1
    have h2 : 0 ≤ (S.globalHi i - 1) / (S.dims i : ℤ) := Int.ediv_nonneg (by have := (hS.high i).1; omega) (by omega)
    omega
  refine ⟨fun p hp => h.1 p fun i => ?_, fun c p hp i => ?_⟩
  · have : S.globalLo i ≤ p i ∧ p i ≤ S.globalHi i := hp i
    rwa [h0 i] at this
  · have := h.2 p c hp i
    show S.globalLo i ≤ p i ∧ p i ≤ S.globalHi i
    rwa [h0 i]

/-- **C23** is violated for a global domain that does not start at 0: with the domain 5…10 and a single process the process owns
cells 0…10. -/
theorem C23_violated_lower_limit_ignored : ∃ (S : Setup 1) (c : Coord S), Initialised S id ∧
    S.globalLo 0 = 5 ∧ S.globalHi 0 = 10 ∧ (![0] : Idx 1) ∈ box (bounds S c).innerDomain ∧
    (![0] : Idx 1) ∉ box ⟨S.globalLo, S.globalHi⟩ := by
  refine ⟨⟨![5], ![10], fun _ => 1, fun _ k => cutOf id 10 1 k, 1⟩, fun _ => 0, ⟨⟨monotone_id, fun _ _ => rfl, ?_⟩, ?_, ?_, ?_⟩,
    rfl, rfl, ?_, ?_⟩
  · intro x h _
    rw [id, sub_self, abs_zero]
    have : (0 : ℚ) ≤ x := le_trans (by norm_num) h
    positivity
  · intro i k; fin_cases i; rfl
  · intro i; fin_cases i; decide
  · intro i; fin_cases i; decide
  · intro i; fin_cases i; decide
  · intro h
    have := (h 0).1
    exact absurd this (by decide)

/-- **C24** In each dimension each process owns between `⌊(hi-1)/dims⌋` and `⌊(hi-1)/dims⌋ + 2` cells. -/
theorem C24_inner_width (S : Setup n) (rnd : ℚ → ℚ) (hS : Initialised S rnd) (c : Coord S) (i : Fin n) :
    (S.globalHi i - 1) / S.dims i ≤ innerWidth (bounds S c) i ∧
    innerWidth (bounds S c) i ≤ (S.globalHi i - 1) / S.dims i + 2 := by
  rw [innerWidth_eq]
  exact width_bounds S i hS.rounding (hS.cut i) (hS.high i).1 (hS.high i).2 (hS.dims i).2 _ (c i).2

/-- **C24** The widths of the inner domains of any two processes differ by at most two cells in each dimension. -/
theorem C24_balanced (S : Setup n) (rnd : ℚ → ℚ) (hS : Initialised S rnd) (c c' : Coord S) (i : Fin n) :
    |innerWidth (bounds S c) i - innerWidth (bounds S c') i| ≤ 2 := by
  have h1 := C24_inner_width S rnd hS c i
  have h2 := C24_inner_width S rnd hS c' i
  rw [abs_le]
  constructor <;> omega

/-- exact arithmetic is a rounding -/
theorem rounding_id : Rounding id := ⟨monotone_id, fun _ _ => rfl, fun x h _ => by
  rw [id, sub_self, abs_zero]
  have : (0 : ℚ) ≤ x := le_trans (by norm_num) h
  positivity⟩

/-- 12 × 7 cells on 3 × 2 processes with one ghost cell -/
def exampleSetup : Setup 2 where
  globalLo := ![0, 0]
  globalHi := ![11, 6]
  dims := ![3, 2]
  cut i k := cutOf id ((![11, 6] : Idx 2) i) ((![3, 2] : Fin 2 → ℕ) i) k
  delta := 1

theorem exampleSetup_initialised : Initialised exampleSetup id :=
  ⟨rounding_id, fun _ _ => rfl, fun i => by fin_cases i <;> decide, fun i => by fin_cases i <;> decide⟩

/-- non-vacuity of C23 and C24: along the first dimension the processes own 0…3, 4…6 and 7…11; two is attained -/
example : (fun k => start exampleSetup 0 k) '' {0, 1, 2, 3} = {0, 4, 7, 12} ∧ (∀ i, exampleSetup.globalLo i = 0) ∧
    Initialised exampleSetup id := by
  have h1 : cutOf id 11 3 1 = 3 := by
    have : (id (id (((11 : ℤ) : ℚ) - 1) / ((3 : ℕ) : ℚ)) * ((1 : ℕ) : ℚ) : ℚ) = 10 / 3 := by norm_num
    simp only [id] at this
    simp only [cutOf, toInt, id, this]
    rw [if_pos (by norm_num), Int.floor_eq_iff]; norm_num
  have h2 : cutOf id 11 3 2 = 6 := by
    have : (id (id (((11 : ℤ) : ℚ) - 1) / ((3 : ℕ) : ℚ)) * ((2 : ℕ) : ℚ) : ℚ) = 20 / 3 := by norm_num
    simp only [id] at this
    simp only [cutOf, toInt, id, this]
    rw [if_pos (by norm_num), Int.floor_eq_iff]; norm_num
  refine ⟨?_, fun i => by fin_cases i <;> rfl, exampleSetup_initialised⟩
  simp only [Set.image_insert_eq, Set.image_singleton, start, exampleSetup]
  simp [h1, h2]

/-! ## exchange -/

private theorem start_mono {S : Setup n} (hS : Good S) (c : Coord S) (i : Fin n) {j k : ℕ} (hjk : j ≤ k) (hk : k ≤ S.dims i) :
    start S i j ≤ start S i k := by
  refine mono_of_step (m := S.dims i) (fun l hl => ?_) hjk hk
  have h := hS.wide (update c i ⟨l, hl⟩) i
  rw [innerWidth_eq, update_self] at h
  have := hS.delta
  simp only at h
  omega

theorem mpi_overDims_inv {S : Setup n} (step : Fin n → World S T → World S T → Prop)
    (Inv : Finset (Fin n) → World S T → Prop)
    (hstep : ∀ D d W, d ∉ D → Inv D W → ∃ W', (∀ W'', step d W W'' ↔ W'' = W') ∧ Inv (insert d D) W') :
    ∀ (ds : List (Fin n)) (D : Finset (Fin n)) (W : World S T), ds.Nodup → (∀ d ∈ ds, d ∉ D) → Inv D W →
      ∃ W' D', (∀ W'', Mpi.OverDims step ds W W'' ↔ W'' = W') ∧ (∀ i, i ∈ D' ↔ i ∈ D ∨ i ∈ ds) ∧ Inv D' W'
  | [], D, W, _, _, h => ⟨W, D, fun W'' => Iff.rfl, by simp, h⟩
  | d :: ds, D, W, hn, hd, h => by
    obtain ⟨W₁, e1, i1⟩ := hstep D d W (hd d List.mem_cons_self) h
    rw [List.nodup_cons] at hn
    obtain ⟨W', D', e2, hD', i2⟩ := mpi_overDims_inv step Inv hstep ds _ W₁ hn.2
      (fun x hx hc => by
        rcases Finset.mem_insert.mp hc with rfl | h'
        · exact hn.1 hx
        · exact hd x (List.mem_cons_of_mem _ hx) h') i1
    refine ⟨W', D', fun out => ?_, fun i => ?_, i2⟩
    · constructor
      · rintro ⟨mid, m1, m2⟩
        rw [e1] at m1; subst m1
        exact (e2 out).mp m2
      · rintro rfl
        exact ⟨W₁, (e1 _).mpr rfl, (e2 _).mpr rfl⟩
    · rw [hD' i, Finset.mem_insert, List.mem_cons]; tauto

/-- **C25** Let the inner cells of all processes together hold a global field `φ`. Then `exchange(grid)`, called by all processes,
terminates, without access outside of a grid or a buffer, and afterwards every cell of the local domain of every process, ghost
cells, edges and corners included, holds the value of the periodically continued global field. Cells outside of the local domain
are unchanged. The number of processes in each dimension is arbitrary (one process is its own neighbour). -/
theorem C25_exchange_is_global_periodic (S : Setup n) (hδ : 1 ≤ S.delta) (hw : ∀ c i, S.delta ≤ innerWidth (bounds S c) i)
    (hfit : ∀ c, S.delta * ∏ i, ((bounds S c).size.hi i - (bounds S c).size.lo i + 1) < 2 ^ 31)
    (W : World S T) (hcov : ∀ c, ∀ p ∈ box (bounds S c).size, (W c).range.inside p = true)
    (φ : Idx n → T) (hφ : ∀ c, ∀ p ∈ box (bounds S c).innerDomain, (W c).cell p = φ p) :
    ∃ W' : World S T, (∀ W'', Mpi.Exchange S W W'' ↔ W'' = W') ∧ (∀ c, (W' c).range = (W c).range) ∧
      (∀ c, ∀ p ∈ box (bounds S c).size, (W' c).cell p = φ (fun i => p i % (S.globalHi i + 1))) ∧
      (∀ c p, p ∉ box (bounds S c).size → (W' c).cell p = (W c).cell p) := by
  have hS : Good S := ⟨hδ, hw, hfit⟩
  have base : ∀ c p, (∀ i, i ∉ (∅ : Finset (Fin n)) → start S i (c i).1 ≤ p i ∧ p i < start S i ((c i).1 + 1)) →
      (W c).cell p = φ (fun i => p i % (S.globalHi i + 1)) := by
    intro c p h
    have h := fun i => h i (by simp)
    rw [hφ c p ((mem_inner S c p).mpr h)]
    congr 1
    funext i
    have h1 := start_mono hS c i (Nat.zero_le (c i).1) (c i).2.le
    have h2 := start_mono hS c i (show (c i).1 + 1 ≤ S.dims i from (c i).2) le_rfl
    rw [start_dims S i (Nat.lt_of_le_of_lt (Nat.zero_le _) (c i).2)] at h2
    rw [start_zero] at h1
    have := h i
    rw [Int.emod_eq_of_lt (by omega) (by omega)]
  obtain ⟨W', D', e, hD', i1, i2, i3⟩ := mpi_overDims_inv (Mpi.ExchangeDim S)
    (fun D W' => (∀ c, (W' c).range = (W c).range) ∧
      (∀ c p, p ∈ box (bounds S c).size → (∀ i, i ∉ D → start S i (c i).1 ≤ p i ∧ p i < start S i ((c i).1 + 1)) →
        (W' c).cell p = φ (fun i => p i % (S.globalHi i + 1))) ∧
      (∀ c p, p ∉ box (bounds S c).size → (W' c).cell p = (W c).cell p))
    (by
      rintro D d W₁ hD ⟨h1, h2, h3⟩
      obtain ⟨W', e, r, a1, a2, a3⟩ := exchangeDim_spec hS d W₁ (fun c p hp => by rw [h1]; exact hcov c p hp)
      have hwrap : ∀ (p : Idx n) (k : ℤ), (k = 0 ∨ k = S.globalHi d + 1 ∨ k = -(S.globalHi d + 1)) →
          (fun i => moveBy d k p i % (S.globalHi i + 1)) = fun i => p i % (S.globalHi i + 1) := by
        intro p k hk
        funext i
        rw [moveBy_apply]
        split_ifs with hi
        · subst hi
          rcases hk with rfl | rfl | rfl
          · rw [add_zero]
          · rw [Int.add_emod_right]
          · rw [← sub_eq_add_neg, Int.sub_emod_right]
        · rfl
      refine ⟨W', e, fun c => (r c).trans (h1 c), fun c p hp hin => ?_, fun c p hp => ?_⟩
      · by_cases hl : p d < start S d (c d).1
        · obtain ⟨b1, b2⟩ := a1 c p hp hl
          rw [source_iff _ d .max (hw _ d) (by rw [bounds_delta]; omega)] at b1
          rw [b2, h2 _ _ b1.1, hwrap]
          · unfold loShift; split_ifs <;> simp
          · intro i hi
            by_cases hid : i = d
            · subst hid
              have := b1.2
              have hw1 := hw (prev S c i) i
              simp only [size_hi, bounds_delta] at this
              rw [innerWidth_eq] at hw1
              omega
            · rw [moveBy_apply, if_neg hid, prev_other S c hid]
              exact hin i (by rw [Finset.mem_insert]; tauto)
        · by_cases hh : start S d ((c d).1 + 1) ≤ p d
          · obtain ⟨b1, b2⟩ := a2 c p hp hh
            rw [source_iff _ d .min (hw _ d) (by rw [bounds_delta]; omega)] at b1
            rw [b2, h2 _ _ b1.1, hwrap]
            · unfold hiShift; split_ifs <;> simp
            · intro i hi
              by_cases hid : i = d
              · subst hid
                have := b1.2
                have hw1 := hw (next S c i) i
                simp only [size_lo, bounds_delta] at this
                rw [innerWidth_eq] at hw1
                omega
              · rw [moveBy_apply, if_neg hid, next_other S c hid]
                exact hin i (by rw [Finset.mem_insert]; tauto)
          · rw [a3 c p (by rintro ⟨-, h | h⟩ <;> omega)]
            refine h2 c p hp fun i hi => ?_
            by_cases hid : i = d
            · subst hid; omega
            · exact hin i (by rw [Finset.mem_insert]; tauto)
      · rw [a3 c p (fun h => hp h.1)]
        exact h3 c p hp)
    (List.finRange n) ∅ W (List.nodup_finRange n) (by simp) ⟨fun _ => rfl, fun c p _ h => base c p h, fun _ _ _ => rfl⟩
  refine ⟨W', e, i1, fun c p hp => i2 c p hp fun i hi => ?_, i3⟩
  exact absurd ((hD' i).mpr (Or.inr (List.mem_finRange i))) hi

/-- the inner domains are wide enough for the ghost cells if the average width is -/
theorem wide_enough (S : Setup n) (rnd : ℚ → ℚ) (hS : Initialised S rnd) (hb : ∀ i, S.delta * S.dims i ≤ S.globalHi i - 1)
    (c : Coord S) (i : Fin n) : S.delta ≤ innerWidth (bounds S c) i := by
  have h1 := (C24_inner_width S rnd hS c i).1
  have h2 : S.delta ≤ (S.globalHi i - 1) / (S.dims i : ℤ) := by
    rw [Int.le_ediv_iff_mul_le (by exact_mod_cast (hS.dims i).1)]
    exact hb i
  omega

/-- non-vacuity of C25: the hypotheses hold for the example, with a field that is different in each cell -/
theorem exampleSetup_exchange : let S := exampleSetup
    1 ≤ S.delta ∧ (∀ c i, S.delta ≤ innerWidth (bounds S c) i) ∧
    (∀ c, S.delta * ∏ i, ((bounds S c).size.hi i - (bounds S c).size.lo i + 1) < 2 ^ 31) ∧
    ∃ (W : World S (Idx 2)) (φ : Idx 2 → Idx 2), Injective φ ∧ (∀ c, ∀ p ∈ box (bounds S c).size, (W c).range.inside p = true) ∧
      ∀ c, ∀ p ∈ box (bounds S c).innerDomain, (W c).cell p = φ p := by
  intro S
  refine ⟨by decide, wide_enough S id exampleSetup_initialised fun i => by fin_cases i <;> decide, fun c => ?_,
    fun c => ⟨(bounds S c).size, id⟩, id, injective_id, fun c p hp => (C01_inside_iff _ _).mpr hp, fun _ _ _ => rfl⟩
  have h : ∀ i, (bounds S c).size.hi i - (bounds S c).size.lo i + 1 ≤ 7 ∧
      1 ≤ (bounds S c).size.hi i - (bounds S c).size.lo i + 1 := fun i => by
    have h1 := C24_inner_width S id exampleSetup_initialised c i
    rw [innerWidth_eq] at h1
    rw [size_hi, size_lo]
    have : S.delta = 1 := rfl
    have h2 : (S.globalHi i - 1) / (S.dims i : ℤ) ≤ 3 ∧ 0 ≤ (S.globalHi i - 1) / (S.dims i : ℤ) := by
      fin_cases i <;> decide
    omega
  rw [Fin.prod_univ_two]
  have : S.delta = 1 := rfl
  rw [this]
  nlinarith [h 0, h 1]

/-! ## buffers -/

private theorem card_box (r : Range n) (h : ∀ i, r.lo i ≤ r.hi i) :
    ((box r).ncard : ℤ) = ∏ i, (r.hi i - r.lo i + 1) := by
  have hf : box r = (Finset.Icc r.lo r.hi : Finset (Idx n)) := by
    ext p
    rw [Finset.coe_Icc, Set.mem_Icc]
    exact ⟨fun h => ⟨fun i => (h i).1, fun i => (h i).2⟩, fun h i => ⟨h.1 i, h.2 i⟩⟩
  rw [hf, Set.ncard_coe_finset, Pi.card_Icc]
  push_cast
  refine Finset.prod_congr rfl fun i _ => ?_
  rw [Int.card_Icc]
  have := h i
  omega

/-- **C26** If `delta` times the number of cells of the local domain fits in an `int`, the length computed for the exchange buffers
is the number of ghost cells on each side and the number of cells on each side to be sent; and the neighbour on either side
computes the same length. -/
theorem C26_buffer_size_partial (S : Setup n) (hδ : 1 ≤ S.delta) (hw : ∀ c i, S.delta ≤ innerWidth (bounds S c) i)
    (hfit : ∀ c, S.delta * ∏ i, ((bounds S c).size.hi i - (bounds S c).size.lo i + 1) < 2 ^ 31)
    (c : Coord S) (d : Fin n) :
    ∃ s : ℕ, exchSize (bounds S c) d = some (s : ℤ) ∧
      exchSize (bounds S (next S c d)) d = some (s : ℤ) ∧ exchSize (bounds S (prev S c d)) d = some (s : ℤ) ∧
      ∀ b, (box ((bounds S c).ghostDomain d b)).ncard = s ∧ (box ((bounds S c).ghostSourceDomain d b)).ncard = s := by
  have hS : Good S := ⟨hδ, hw, hfit⟩
  have hE : ∀ i, (bounds S c).size.lo i ≤ (bounds S c).size.hi i := fun i => by
    have := hS.ext c i; have := hS.wide c i; omega
  have hcard : ∀ r : Range n, (r.hi d - r.lo d + 1 = (bounds S c).delta ∧
      ∀ i, i ≠ d → r.hi i = (bounds S c).size.hi i ∧ r.lo i = (bounds S c).size.lo i) →
      ((box r).ncard : ℤ) = slab S d c := fun r h => by
    rw [card_box r fun i => ?_]
    · exact prod_slab r d (bounds S c) _ h.1 h.2
    · by_cases hi : i = d
      · subst hi; have := h.1; rw [bounds_delta] at this; omega
      · rw [(h.2 i hi).1, (h.2 i hi).2]; exact hE i
  have hs := fun b => slab_shape (bounds S c) d b
  have h0 := hcard _ (hs .min).1
  refine ⟨(box ((bounds S c).ghostDomain d .min)).ncard, ?_, ?_, ?_, fun b => ⟨?_, ?_⟩⟩
  · rw [h0, hS.exchSize]
  · rw [h0, hS.exchSize, slab_next]
  · rw [h0, hS.exchSize, slab_prev]
  · have := hcard _ (hs b).1
    omega
  · have := hcard _ (hs b).2
    omega

/-- **C26** is violated for large local domains: with 1024³ inner cells and two ghost cells the computation of the buffer size
overflows `int` (undefined behaviour), although each buffer needs only 2 · 1028² elements. -/
theorem C26_violated_int_overflow : ∃ (S : Setup 3) (c : Coord S), Initialised S id ∧ 1 ≤ S.delta ∧
    (∀ c i, S.delta ≤ innerWidth (bounds S c) i) ∧
    (∀ d, exchSize (bounds S c) d = none) ∧ ∀ d b, (box ((bounds S c).ghostDomain d b)).ncard = 2113568 := by
  let S : Setup 3 := ⟨fun _ => 0, fun _ => 1023, fun _ => 1, fun _ k => cutOf id 1023 1 k, 2⟩
  have hI : Initialised S id := ⟨rounding_id, fun _ _ => rfl, fun i => by fin_cases i <;> decide, fun i => by fin_cases i <;> decide⟩
  have hwd := wide_enough S id hI fun i => by fin_cases i <;> decide
  refine ⟨S, fun _ => 0, hI, by decide, hwd, fun d => ?_, fun d b => ?_⟩
  · have : exchangeSizeProduct (bounds S fun _ => 0) = none := by decide
    rw [exchSize, this]; rfl
  · have hs := (slab_shape (bounds S fun _ => 0) d b).1
    have hd : (bounds S fun _ => 0).delta = 2 := rfl
    have he : ∀ i, (bounds S fun _ => 0).size.hi i = 1025 ∧ (bounds S fun _ => 0).size.lo i = -2 := fun i => by
      fin_cases i <;> decide
    have := card_box ((bounds S fun _ => 0).ghostDomain d b) fun i => by
      by_cases hi : i = d
      · subst hi; omega
      · rw [(hs.2 i hi).1, (hs.2 i hi).2, (he i).1, (he i).2]; decide
    rw [prod_slab _ d _ _ hs.1 hs.2] at this
    simp only [he] at this
    rw [Finset.prod_const, Finset.card_erase_of_mem (Finset.mem_univ d), hd] at this
    simp only [Finset.card_univ, Fintype.card_fin] at this
    norm_num at this
    omega

/-! ## process ids -/

private theorem id_inj {ι : Type} (D c c' : ι → ℕ) (hc : ∀ i, c i < D i) (hc' : ∀ i, c' i < D i) :
    ∀ (l : List ι) (x x' : ℕ), l.foldl (fun id i => D i * id + c i) x = l.foldl (fun id i => D i * id + c' i) x' →
      x = x' ∧ ∀ i ∈ l, c i = c' i
  | [], x, x', h => ⟨h, by simp⟩
  | i :: l, x, x', h => by
    rw [List.foldl_cons, List.foldl_cons] at h
    obtain ⟨h1, h2⟩ := id_inj D c c' hc hc' l _ _ h
    have hm := congrArg (· % D i) h1
    have hD : 0 < D i := Nat.lt_of_le_of_lt (Nat.zero_le _) (hc i)
    simp only [Nat.mul_add_mod, Nat.mod_eq_of_lt (hc i), Nat.mod_eq_of_lt (hc' i)] at hm
    rw [hm] at h1
    refine ⟨Nat.eq_of_mul_eq_mul_left hD (Nat.add_right_cancel h1), fun j hj => ?_⟩
    rcases List.mem_cons.mp hj with rfl | hj
    · exact hm
    · exact h2 j hj

private theorem id_lt {ι : Type} (D c : ι → ℕ) (hc : ∀ i, c i < D i) :
    ∀ (l : List ι) (x m : ℕ), x < m → l.foldl (fun id i => D i * id + c i) x < m * (l.map D).prod
  | [], x, m, h => by simpa using h
  | i :: l, x, m, h => by
    rw [List.foldl_cons, List.map_cons, List.prod_cons, ← mul_assoc]
    refine id_lt D c hc l _ _ ?_
    have := hc i
    nlinarith

/-- **C27** Different processes have different unique ids. -/
theorem C27_unique_ids_differ (S : Setup (n + 1)) (c c' : Coord S) (h : uniqueId S c = uniqueId S c') : c = c' := by
  obtain ⟨h1, h2⟩ := id_inj (fun i : Fin n => S.dims i.succ) (fun i => (c i.succ).1) (fun i => (c' i.succ).1)
    (fun i => (c i.succ).2) (fun i => (c' i.succ).2) _ _ _ h
  funext i
  apply Fin.ext
  refine Fin.cases h1 (fun j => ?_) i
  exact h2 j (List.mem_finRange j)

/-- **C27** The ids are less than the number of processes, so that the ids are exactly `0, 1, …, count-1`. -/
theorem C27_unique_ids_range (S : Setup (n + 1)) :
    Set.range (uniqueId S) = {k | k < ∏ i, S.dims i} := by
  have hlt : ∀ c, uniqueId S c < ∏ i, S.dims i := fun c => by
    have := id_lt (fun i : Fin n => S.dims i.succ) (fun i => (c i.succ).1) (fun i => (c i.succ).2) (List.finRange n)
      (c 0).1 (S.dims 0) (c 0).2
    rw [Fin.prod_univ_succ, ← List.prod_ofFn, List.ofFn_eq_map]
    exact this
  have hinj : Injective (uniqueId S) := fun c c' h => C27_unique_ids_differ S c c' h
  have hcard : (Finset.univ.image (uniqueId S)) = Finset.range (∏ i, S.dims i) := by
    apply Finset.eq_of_subset_of_card_le
    · intro k hk
      obtain ⟨c, -, rfl⟩ := Finset.mem_image.mp hk
      exact Finset.mem_range.mpr (hlt c)
    · rw [Finset.card_image_of_injective _ hinj, Finset.card_range, Finset.card_univ, Fintype.card_pi]
      simp
  ext k
  have := Finset.ext_iff.mp hcard k
  simpa using this

/-- non-vacuity: the process at (2,1) of 3 × 2 has id 5 -/
example : uniqueId exampleSetup (fun i => ⟨![2, 1] i, by fin_cases i <;> decide⟩) = 5 := by decide

end Schnek.Props
