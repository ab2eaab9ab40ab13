import Verif.Lemma.Machine
import Verif.Props.Storage
import Verif.Props.Exchange
import Verif.Props.Mpi

/-!
# C116-C119: index arithmetic with `int` of 32 bits
-/

namespace Schnek.Props

open Schnek Schnek.Spec Schnek.Lemma Schnek.Lemma.Machine Function

variable {n : ℕ} {σ T : Type}

/-! ## C116 iteration -/

/-- **C116** A range iterator visits the indices of a non-empty range in lexicographic order, each once, without overflow, if no upper limit is
the largest `int`. -/
theorem C116_iterator (r : Range n) (hne : ∀ i, r.lo i ≤ r.hi i) (hint : ∀ i, -2 ^ 31 ≤ r.lo i ∧ r.hi i < 2 ^ 31 - 1) :
    ∃ l, Enumerates LexLt (InBox r.lo r.hi) l ∧ ∀ out, Machine.IterLoop r r.iterBegin out ↔ out = some l := by
  obtain ⟨l, h1, h2⟩ := C01_iterator_enumerates_range r hne
  refine ⟨l, h1, fun out => ?_⟩
  rw [iterLoop_begin fun i => ⟨(hint i).1, by have := hne i; have := hint i; omega, (hint i).2⟩]
  constructor
  · rintro ⟨l', rfl, h⟩
    rw [(h2 l').mp h]
  · rintro rfl
    exact ⟨l, rfl, (h2 l).mpr rfl⟩

/-- **C116** is violated if the range contains the largest `int`: every loop ends in an overflow. -/
theorem C116_violated_iterator_largest_index (r : Range n) (hne : ∀ i, r.lo i ≤ r.hi i) (hmax : ∃ i, r.hi i = 2 ^ 31 - 1)
    (out : Option (List (Idx n))) : Machine.IterLoop r r.iterBegin out ↔ out = none := by
  obtain ⟨l, -, h2⟩ := C01_iterator_enumerates_range r hne
  exact iterLoop_overflow hmax ((h2 l).mpr rfl) rfl out

/-- **C116** The loops of the `forEach` functions visit the indices of the range, none if it is empty, in their order and without overflow, if no
upper limit is the largest `int`. -/
theorem C116_forEach (r : Range n) (hint : ∀ i, -2 ^ 31 ≤ r.lo i ∧ r.hi i < 2 ^ 31 - 1) :
    (∃ l, Enumerates LexLt (InBox r.lo r.hi) l ∧
      ∀ (σ : Type) (f : Idx n → σ → σ) (s : σ), Machine.forEachC r f s = some (l.foldl (fun s p => f p s) s)) ∧
    (∃ l, Enumerates ColexLt (InBox r.lo r.hi) l ∧
      ∀ (σ : Type) (f : Idx n → σ → σ) (s : σ), Machine.forEachF r f s = some (l.foldl (fun s p => f p s) s)) := by
  obtain ⟨l, h1, h2⟩ := C02_forEachC r
  obtain ⟨l', h1', h2'⟩ := C02_forEachF r
  refine ⟨⟨l, h1, fun σ f s => ?_⟩, ⟨l', h1', fun σ f s => ?_⟩⟩
  · rw [← h2, Machine.forEachC, forEachCImpl_some hint]
    rfl
  · rw [← h2', Machine.forEachF, forEachFImpl_some hint]
    rfl

/-- **C116** is violated by the `forEach` functions, too, if a non-empty range contains the largest `int`. -/
theorem C116_violated_forEach_largest_index (r : Range n) (hne : ∀ i, r.lo i ≤ r.hi i) (hmax : ∃ i, r.hi i = 2 ^ 31 - 1)
    (f : Idx n → σ → σ) (s : σ) : Machine.forEachC r f s = none ∧ Machine.forEachF r f s = none := by
  obtain ⟨i, hi⟩ := hmax
  constructor
  · rw [Machine.forEachC, forEachCImpl_none hne f n le_rfl _ ⟨i, by omega, hi⟩]
    rfl
  · rw [Machine.forEachF, forEachFImpl_none hne f n le_rfl _ ⟨i, i.2, hi⟩]
    rfl

/-- ranges next to the limits -/
example : (∃ r : Range 2, (∀ i, r.lo i ≤ r.hi i) ∧ (∀ i, -2 ^ 31 ≤ r.lo i ∧ r.hi i < 2 ^ 31 - 1) ∧ r.lo 0 = -2 ^ 31 ∧ r.hi 1 = 2 ^ 31 - 2) ∧
    ∃ r : Range 2, (∀ i, r.lo i ≤ r.hi i) ∧ ∃ i, r.hi i = 2 ^ 31 - 1 :=
  ⟨⟨⟨![-2 ^ 31, 3], ![7, 2 ^ 31 - 2]⟩, by decide, by decide, rfl, rfl⟩, ⟨⟨![0, 2 ^ 31 - 3], ![1, 2 ^ 31 - 1]⟩, by decide, 1, rfl⟩⟩

/-! ## C117 storage -/

/-- the functions are the same, therefore C04 and C05 apply -/
private theorem bij_of_slot (o : Order) (r : Range (n + 1)) (hne : ∀ i, r.lo i ≤ r.hi i) (hs : ∏ i, extent r.lo r.hi i < 2 ^ 64)
    (h : ∀ p, Machine.slot o r p = some (Storage.slot o r p)) :
    ∃ f : Idx (n + 1) → ℕ, (∀ p, Machine.slot o r p = some (f p)) ∧
      Set.BijOn f {p | InBox r.lo r.hi p} {k | (k : ℤ) < ∏ i, extent r.lo r.hi i} := by
  refine ⟨Storage.slot o r, h, ?_⟩
  cases o with
  | c => exact (C04_c_order_bijection r hne hs).1
  | fortran => exact (C05_fortran_order_bijection r hne hs).1

/-- **C117** In a grid whose number of elements times its rank is at most 2^32, element access makes no overflow, and it maps the indices of the
grid one to one to the allocated elements, wherever the grid is in the index space. -/
theorem C117_access (o : Order) (r : Range (n + 1)) (hne : ∀ i, r.lo i ≤ r.hi i) (hint : ∀ i, -2 ^ 31 < r.lo i ∧ r.hi i < 2 ^ 31)
    (hext : ∀ i, extent r.lo r.hi i < 2 ^ 31) (hs : (n + 1) * ∏ i, extent r.lo r.hi i ≤ 2 ^ 32) :
    ∃ f : Idx (n + 1) → ℕ, (∀ p, Machine.slot o r p = some (f p)) ∧
      Set.BijOn f {p | InBox r.lo r.hi p} {k | (k : ℤ) < ∏ i, extent r.lo r.hi i} := by
  have hpos : 0 < ∏ i, extent r.lo r.hi i := Finset.prod_pos fun i _ => by have := hne i; unfold extent; omega
  have hd : ∀ i, -2 ^ 31 ≤ r.hi i - r.lo i ∧ r.hi i - r.lo i + 1 < 2 ^ 31 := fun i => by
    have := hne i
    have h2 : r.hi i - r.lo i + 1 < 2 ^ 31 := hext i
    omega
  refine bij_of_slot o r hne (by nlinarith) fun p => ?_
  cases o with
  | fortran => exact slotF_some r hd ⟨(hint _).1, by have := hne (Fin.last n); have := hint (Fin.last n); omega⟩ p
  | c =>
    refine slotC_some r hd ⟨(hint 0).1, by have := hne 0; have := hint 0; omega⟩ (fun j hj => ?_) p
    have hlo : ∀ i, |r.lo i| ≤ 2 ^ 31 - 1 := fun i => abs_le.mpr ⟨by have := hint i; omega, by have := hint i; have := hne i; omega⟩
    rw [← vol_full] at hs
    have b : ∀ k (hk : k ≤ n + 1), (2 ^ 31 - 1) * ((k : ℤ) * vol r.lo r.hi k hk) < 2 ^ 63 := fun k hk => by
      have h1 := vol_le r hne k (n + 1) hk le_rfl
      have h2 : 0 < vol r.lo r.hi k hk := vol_pos (p := r.lo) k _ fun i _ => ⟨le_rfl, hne i⟩
      have h3 : (k : ℤ) * vol r.lo r.hi k hk ≤ 2 ^ 32 := by
        have : (k : ℤ) ≤ n + 1 := by exact_mod_cast hk
        nlinarith
      nlinarith
    have h1 := abs_pre r hne _ (by norm_num) hlo (j + 1) (by omega)
    have h2 := abs_pre r hne _ (by norm_num) hlo (j + 2) (by omega)
    have c2 := b (j + 2) (by omega)
    rw [abs_le] at h1 h2
    have hV : vol r.lo r.hi (j + 2) (by omega) = vol r.lo r.hi (j + 1) (by omega) * extent r.lo r.hi ⟨j + 1, by omega⟩ := rfl
    have hE : 1 ≤ extent r.lo r.hi ⟨j + 1, by omega⟩ := by have := hne ⟨j + 1, by omega⟩; unfold extent; omega
    have hV1 : 0 < vol r.lo r.hi (j + 1) (by omega) := vol_pos (p := r.lo) _ _ fun i _ => ⟨le_rfl, hne i⟩
    rw [hV] at c2 h2
    set V := vol r.lo r.hi (j + 1) (by omega)
    set E := extent r.lo r.hi ⟨j + 1, by omega⟩
    set a := pre r.lo r.hi 0 (j + 1) (by omega)
    have e1 : -((2 ^ 31 - 1) * (((j + 1 : ℕ) : ℤ) * V)) * E ≤ a * E := mul_le_mul_of_nonneg_right h1.1 (by omega)
    have e2 : a * E ≤ ((2 ^ 31 - 1) * (((j + 1 : ℕ) : ℤ) * V)) * E := mul_le_mul_of_nonneg_right h1.2 (by omega)
    have e3 : ((2 ^ 31 - 1) * (((j + 1 : ℕ) : ℤ) * V)) * E ≤ (2 ^ 31 - 1) * (((j + 2 : ℕ) : ℤ) * (V * E)) := by
      push_cast
      nlinarith [mul_pos hV1 (by omega : 0 < E)]
    refine ⟨?_, ?_, ?_, ?_⟩
    · linarith
    · linarith
    · linarith [h2.1]
    · linarith [h2.2]

/-- **C117** A grid that contains the origin may have up to 2^63-1 elements. -/
theorem C117_access_origin (o : Order) (r : Range (n + 1)) (h0 : ∀ i, r.lo i ≤ 0 ∧ 0 ≤ r.hi i) (hint : ∀ i, -2 ^ 31 < r.lo i ∧ r.hi i < 2 ^ 31)
    (hext : ∀ i, extent r.lo r.hi i < 2 ^ 31) (hs : ∏ i, extent r.lo r.hi i < 2 ^ 63) :
    ∃ f : Idx (n + 1) → ℕ, (∀ p, Machine.slot o r p = some (f p)) ∧
      Set.BijOn f {p | InBox r.lo r.hi p} {k | (k : ℤ) < ∏ i, extent r.lo r.hi i} := by
  have hne : ∀ i, r.lo i ≤ r.hi i := fun i => (h0 i).1.trans (h0 i).2
  have hd : ∀ i, -2 ^ 31 ≤ r.hi i - r.lo i ∧ r.hi i - r.lo i + 1 < 2 ^ 31 := fun i => by
    have := hne i
    have h2 : r.hi i - r.lo i + 1 < 2 ^ 31 := hext i
    omega
  refine bij_of_slot o r hne (by omega) fun p => ?_
  cases o with
  | fortran => exact slotF_some r hd ⟨(hint _).1, by have := h0 (Fin.last n); omega⟩ p
  | c =>
    refine slotC_some r hd ⟨(hint 0).1, by have := h0 0; omega⟩ (fun j hj => ?_) p
    rw [← vol_full] at hs
    have hbox : ∀ k, InBoxK r.lo r.hi 0 k := fun k i _ => h0 i
    have b1 := pre_bounds (j + 1) (by omega) (hbox (j + 1))
    have b2 := pre_bounds (j + 2) (by omega) (hbox (j + 2))
    have c2 := vol_le r hne (j + 2) (n + 1) (by omega) le_rfl
    have hV : vol r.lo r.hi (j + 2) (by omega) = vol r.lo r.hi (j + 1) (by omega) * extent r.lo r.hi ⟨j + 1, by omega⟩ := rfl
    have hE : 1 ≤ extent r.lo r.hi ⟨j + 1, by omega⟩ := by have := hne ⟨j + 1, by omega⟩; unfold extent; omega
    have e1 : 0 ≤ pre r.lo r.hi 0 (j + 1) (by omega) * extent r.lo r.hi ⟨j + 1, by omega⟩ := mul_nonneg b1.1 (by omega)
    have e2 : pre r.lo r.hi 0 (j + 1) (by omega) * extent r.lo r.hi ⟨j + 1, by omega⟩ ≤
        vol r.lo r.hi (j + 1) (by omega) * extent r.lo r.hi ⟨j + 1, by omega⟩ := mul_le_mul_of_nonneg_right (by omega) (by omega)
    refine ⟨?_, ?_, ?_, ?_⟩ <;> omega

/-- **C117** `getSize()` is the number of elements if that is less than 2^31. -/
theorem C117_getSize (r : Range n) (hne : ∀ i, r.lo i ≤ r.hi i) (hs : ∏ i, extent r.lo r.hi i < 2 ^ 31) :
    Machine.getSize r = ∏ i, extent r.lo r.hi i := by
  have hpos : 0 < ∏ i, extent r.lo r.hi i := Finset.prod_pos fun i _ => by have := hne i; unfold extent; omega
  rw [← vol_full] at hs hpos ⊢
  exact toInt_small (size_toNat r (by omega) (by omega)) (by omega) hs

/-- a grid of 10 × 20 × 30 cells far away from the origin, and one of 3000 × 3000 × 3000 cells with ghost cells -/
example : (∃ r : Range 3, (∀ i, r.lo i ≤ r.hi i) ∧ (∀ i, -2 ^ 31 < r.lo i ∧ r.hi i < 2 ^ 31) ∧ (∀ i, extent r.lo r.hi i < 2 ^ 31) ∧
      ((2 : ℕ) + 1) * ∏ i, extent r.lo r.hi i ≤ 2 ^ 32 ∧ ∏ i, extent r.lo r.hi i < 2 ^ 31 ∧ r.lo 0 = 2000000000) ∧
    ∃ r : Range 3, (∀ i, r.lo i ≤ 0 ∧ 0 ≤ r.hi i) ∧ (∀ i, -2 ^ 31 < r.lo i ∧ r.hi i < 2 ^ 31) ∧ (∀ i, extent r.lo r.hi i < 2 ^ 31) ∧
      ∏ i, extent r.lo r.hi i < 2 ^ 63 ∧ 2 ^ 32 < ∏ i, extent r.lo r.hi i :=
  ⟨⟨⟨![2000000000, -2000000000, 5], ![2000000009, -1999999981, 34]⟩, by decide, by decide, by decide, by decide, by decide, rfl⟩,
    ⟨⟨fun _ => -2, fun _ => 3001⟩, by decide, by decide, by decide, by decide, by decide⟩⟩

/-- **C117** is violated for a large grid far away from the origin: 1 × 65536 × 65536 × 2 elements with first index 2^31-2, where the computation of
the offset overflows 64 bits. -/
theorem C117_violated_offset : ∃ r : Range 4, (∀ i, r.lo i ≤ r.hi i) ∧ (∀ i, -2 ^ 31 < r.lo i ∧ r.hi i < 2 ^ 31) ∧
    ∏ i, extent r.lo r.hi i = 2 ^ 33 ∧ ∀ p, Machine.slot .c r p = none := by
  refine ⟨⟨![2 ^ 31 - 2, 0, 0, 0], ![2 ^ 31 - 2, 65535, 65535, 1]⟩, by decide, by decide, by decide, fun p => ?_⟩
  have hd : Machine.dims (⟨![2 ^ 31 - 2, 0, 0, 0], ![2 ^ 31 - 2, 65535, 65535, 1]⟩ : Range 4) = some ![1, 65536, 65536, 2] := by
    rw [dims_some (by decide)]
    congr 1
    funext i
    fin_cases i <;> rfl
  unfold Machine.slot
  rw [hd, Option.bind_some]
  have : Machine.fastC ![1, 65536, 65536, 2] ![2 ^ 31 - 2, 0, 0, 0] = none := by decide +kernel
  exact congrArg (Option.map _) this

/-- **C117** is violated for a grid of 65536 × 65536 elements: `getSize()` is 0. -/
theorem C117_violated_getSize : ∃ r : Range 2, (∀ i, r.lo i ≤ r.hi i) ∧ ∏ i, extent r.lo r.hi i = 2 ^ 32 ∧ Machine.getSize r = 0 := by
  refine ⟨⟨![0, 0], ![65535, 65535]⟩, by decide, by decide, ?_⟩
  have hv : vol (⟨![0, 0], ![65535, 65535]⟩ : Range 2).lo (⟨![0, 0], ![65535, 65535]⟩ : Range 2).hi 2 le_rfl = 4294967296 := by decide
  exact toInt_zero ((size_toNat _ (by rw [hv]; norm_num) (by rw [hv]; norm_num)).trans hv)

/-- **C117** A lower limit equal to the smallest `int` cannot be used in the first dimension (C order) or in the last dimension (Fortran order). -/
theorem C117_violated_smallest_index (r : Range (n + 1)) (p : Idx (n + 1)) :
    (r.lo 0 = -2 ^ 31 → Machine.slot .c r p = none) ∧ (r.lo (Fin.last n) = -2 ^ 31 → Machine.slot .fortran r p = none) := by
  constructor <;> intro h <;> unfold Machine.slot <;> cases Machine.dims r with
  | none => rfl
  | some d =>
    rw [Option.bind_some]
    simp only [Machine.fastC, Machine.fastF]
    rw [h, int_none (by omega)]
    rfl

/-! ## C118 boundaries and ghost cell exchange -/

private theorem safe_of (B : Boundary n) (hδ : 1 ≤ B.delta) (hw : ∀ i, B.delta ≤ innerWidth B i)
    (hint : ∀ i, -2 ^ 31 < B.size.lo i ∧ B.size.hi i < 2 ^ 31 - 1) : Safe B :=
  ⟨hδ, fun i => by have := hw i; simp only [innerWidth, Boundary.innerDomain] at this; omega, fun i => (hint i).1, fun i => (hint i).2⟩

/-- **C118** The inner domain, the ghost cells, their sources and the boundary domains of a local domain are computed without overflow, so that C13
to C16 hold for them. -/
theorem C118_boundaries (B : Boundary n) (hδ : 1 ≤ B.delta) (hw : ∀ i, B.delta ≤ innerWidth B i)
    (hint : ∀ i, -2 ^ 31 < B.size.lo i ∧ B.size.hi i < 2 ^ 31 - 1) :
    Machine.innerDomain B = some B.innerDomain ∧
    ∀ d b, Machine.ghostDomain B d b = some (B.ghostDomain d b) ∧ Machine.ghostSourceDomain B d b = some (B.ghostSourceDomain d b) ∧
      ∀ st, Machine.boundaryDomain B d b st = some (B.boundaryDomain d b st) :=
  have h := safe_of B hδ hw hint
  ⟨inner_some h, fun d b => ⟨ghost_some h d b, source_some h d b, fun st => boundary_some h d b st⟩⟩

/-- **C118** `exchange` of the serial subdivision makes no overflow and gives each ghost cell the value of its periodic image (as in C17). -/
theorem C118_serial_exchange (B : Boundary n) (hδ : 1 ≤ B.delta) (hw : ∀ i, B.delta ≤ innerWidth B i)
    (hint : ∀ i, -2 ^ 31 < B.size.lo i ∧ B.size.hi i < 2 ^ 31 - 1)
    (g : GridMap n T) (hcov : ∀ p ∈ box B.size, g.range.inside p = true) :
    ∃ g' : GridMap n T, (∀ out, Machine.SerialExchange B g out ↔ out = some g') ∧ g'.range = g.range ∧
      (∀ p ∈ box B.size, g'.cell p = g.cell (periodicImage B p)) ∧ (∀ p, p ∉ box B.size → g'.cell p = g.cell p) := by
  obtain ⟨g', h1, h2⟩ := C17_exchange_is_periodic B hδ hw g hcov
  exact ⟨g', fun out => (exchange_iff (safe_of B hδ hw hint) g out).trans (h1 out), h2⟩

/-- **C118** `accumulate` of the serial subdivision does what it does with unbounded numbers (C19). -/
theorem C118_serial_accumulate [Add T] (B : Boundary n) (hδ : 1 ≤ B.delta) (hw : ∀ i, B.delta ≤ innerWidth B i)
    (hint : ∀ i, -2 ^ 31 < B.size.lo i ∧ B.size.hi i < 2 ^ 31 - 1) (g : GridMap n T) (out : Option (GridMap n T)) :
    Machine.SerialAccumulate B g out ↔ Serial.Accumulate B g out := accumulate_iff (safe_of B hδ hw hint) g out

/-- 10 × 5 cells with two ghost cells on each side, at the upper end of the index space -/
example : let B : Boundary 2 := ⟨⟨![2 ^ 31 - 15, -2], ![2 ^ 31 - 2, 6]⟩, 2⟩
    1 ≤ B.delta ∧ (∀ i, B.delta ≤ innerWidth B i) ∧ ∀ i, -2 ^ 31 < B.size.lo i ∧ B.size.hi i < 2 ^ 31 - 1 := by decide

open Schnek.Lemma.Mpi in
private theorem start_bounds (S : Mpi.Setup n) (hw : ∀ c i, 0 ≤ innerWidth (Mpi.bounds S c) i) (c : Mpi.Coord S) (i : Fin n) (k : ℕ)
    (hk : k ≤ S.dims i) : 0 ≤ start S i k ∧ start S i k ≤ S.globalHi i + 1 := by
  have mono := start_mono c hw
  have hup : start S i k ≤ S.globalHi i + 1 := by
    have : ∀ m, k + m ≤ S.dims i → start S i k ≤ start S i (k + m) := by
      intro m
      induction m with
      | zero => intro _; exact le_rfl
      | succ m ih =>
        intro h
        have h1 := ih (by omega)
        have h2 := mono i (k + m) (by omega)
        rw [← Nat.add_assoc]
        omega
    have h1 := this (S.dims i - k) (by omega)
    rwa [show k + (S.dims i - k) = S.dims i by omega, start_dims S i (Nat.lt_of_le_of_lt (Nat.zero_le _) (c i).2)] at h1
  have hdn : ∀ k : ℕ, k ≤ S.dims i → 0 ≤ start S i k := fun k => by
    induction k with
    | zero => intro _; rw [start_zero]
    | succ k ih =>
      intro h
      have h1 := ih (by omega)
      have h2 := mono i k (by omega)
      omega
  exact ⟨hdn k hk, hup⟩

open Schnek.Lemma.Mpi in
/-- **C118** The local domains of all processes are computed without overflow. -/
theorem C118_mpi_bounds (S : Mpi.Setup n) (hδ : 1 ≤ S.delta) (hw : ∀ c i, S.delta ≤ innerWidth (Mpi.bounds S c) i)
    (hdims : ∀ i, S.dims i < 2 ^ 31) (hglob : ∀ i, S.globalHi i + 2 * S.delta + 1 < 2 ^ 31)
    (hbox : ∀ i, -2 ^ 31 ≤ S.globalHi i - S.globalLo i ∧ S.globalHi i - S.globalLo i < 2 ^ 31) (c : Mpi.Coord S) :
    Machine.mpiBounds S c = some (Mpi.bounds S c) := by
  have mono := start_mono c fun c i => by have := hw c i; omega
  have hup := fun i k hk => (start_bounds S (fun c i => by have := hw c i; omega) c i k hk).2
  have hdn := fun i k hk => (start_bounds S (fun c i => by have := hw c i; omega) c i k hk).1
  have hlow : Machine.collect (Machine.localLow S c) = some (Mpi.localLow S c) := collect_some fun i => by
    have hc := (c i).2
    have h1 := hup i (c i).1 (by omega)
    have h2 := hdn i (c i).1 (by omega)
    have h3 := hglob i
    have h4 := hup i 0 (by omega)
    rw [start_zero] at h4
    unfold Machine.localLow Mpi.localLow
    by_cases h0 : (c i).1 > 0
    · have hs : start S i (c i).1 = S.cut i (c i).1 + 1 := by unfold start; rw [if_neg (by omega), if_pos hc]
      rw [if_pos h0, if_pos h0, int_some (by omega) (by omega), Option.bind_some, int_some (by omega) (by omega), Option.bind_some,
        int_some (by omega) (by omega)]
    · rw [if_neg h0, if_neg h0, int_some (by omega) (by omega)]
  have hhigh : Machine.collect (Machine.localHigh S c) = some (Mpi.localHigh S c) := collect_some fun i => by
    have hc := (c i).2
    have h1 := hup i ((c i).1 + 1) (by omega)
    have h2 := hdn i ((c i).1 + 1) (by omega)
    have h3 := hglob i
    have h4 := hdims i
    have h5 := hup i 0 (by omega)
    rw [start_zero] at h5
    unfold Machine.localHigh Mpi.localHigh
    rw [int_some (by omega) (by omega), Option.bind_some]
    by_cases h0 : (c i).1 + 1 < S.dims i
    · have hs : start S i ((c i).1 + 1) = S.cut i ((c i).1 + 1) + 1 := by unfold start; rw [if_neg (by omega), if_pos h0]
      have e : (((c i).1 : ℤ) + 1).toNat = (c i).1 + 1 := by omega
      rw [if_pos h0, if_pos (by omega), int_some (by omega) (by omega), Option.bind_some, e, int_some (by omega) (by omega), Option.bind_some,
        int_some (by omega) (by omega)]
    · rw [if_neg h0, if_neg (by omega), int_some (by omega) (by omega)]
  unfold Machine.mpiBounds
  rw [collect_some (g := fun i => S.globalHi i - S.globalLo i) fun i => int_some (hbox i).1 (hbox i).2, Option.bind_some, hlow, Option.bind_some,
    hhigh, Option.bind_some, dims_some fun i => ?_]
  · rfl
  · have e1 := low_eq S c i
    have e2 := high_eq S c i
    have hc := (c i).2
    have h1 := hup i ((c i).1 + 1) (by omega)
    have h2 := hdn i (c i).1 (by omega)
    have h3 := mono i (c i).1 hc
    have h4 := hglob i
    show -2 ^ 31 ≤ Mpi.localHigh S c i - Mpi.localLow S c i ∧ Mpi.localHigh S c i - Mpi.localLow S c i + 1 < 2 ^ 31
    omega

open Schnek.Lemma.Mpi in
private theorem mpi_safe (S : Mpi.Setup n) (hδ : 1 ≤ S.delta) (hw : ∀ c i, S.delta ≤ innerWidth (Mpi.bounds S c) i)
    (hglob : ∀ i, S.globalHi i + 2 * S.delta + 1 < 2 ^ 31) (c : Mpi.Coord S) : Safe (Mpi.bounds S c) := by
  refine safe_of _ hδ (hw c) fun i => ?_
  have h0 := fun c i => le_trans (by omega : 0 ≤ S.delta) (hw c i)
  have hc := (c i).2
  have h1 := start_bounds S h0 c i (c i).1 (by omega)
  have h2 := start_bounds S h0 c i ((c i).1 + 1) (by omega)
  have h3 := hglob i
  rw [size_lo, size_hi]
  omega

/-- **C118** `exchange` of the MPI subdivision makes no overflow and gives each cell of each process the value of the global periodic field (as in
C25), if the global domain is not too large. -/
theorem C118_mpi_exchange (S : Mpi.Setup n) (hδ : 1 ≤ S.delta) (hw : ∀ c i, S.delta ≤ innerWidth (Mpi.bounds S c) i)
    (hfit : ∀ c, S.delta * ∏ i, ((Mpi.bounds S c).size.hi i - (Mpi.bounds S c).size.lo i + 1) < 2 ^ 31)
    (hdims : ∀ i, S.dims i < 2 ^ 31) (hglob : ∀ i, S.globalHi i + 2 * S.delta + 1 < 2 ^ 31)
    (hbox : ∀ i, -2 ^ 31 ≤ S.globalHi i - S.globalLo i ∧ S.globalHi i - S.globalLo i < 2 ^ 31)
    (W : Mpi.World S T) (hcov : ∀ c, ∀ p ∈ box (Mpi.bounds S c).size, (W c).range.inside p = true)
    (φ : Idx n → T) (hφ : ∀ c, ∀ p ∈ box (Mpi.bounds S c).innerDomain, (W c).cell p = φ p) :
    ∃ W' : Mpi.World S T, (∀ W'', Machine.MpiExchange S W W'' ↔ W'' = W') ∧ (∀ c, (W' c).range = (W c).range) ∧
      (∀ c, ∀ p ∈ box (Mpi.bounds S c).size, (W' c).cell p = φ (fun i => p i % (S.globalHi i + 1))) ∧
      (∀ c p, p ∉ box (Mpi.bounds S c).size → (W' c).cell p = (W c).cell p) := by
  obtain ⟨W', h1, h2⟩ := C25_exchange_is_global_periodic S hδ hw hfit W hcov φ hφ
  have hB := C118_mpi_bounds S hδ hw hdims hglob hbox
  exact ⟨W', fun W'' => (mpiExchange_iff hB (mpi_safe S hδ hw hglob) W W'').trans (h1 W''), h2⟩

/-- **C118** `accumulate` of the MPI subdivision does what it does with unbounded numbers (C56). -/
theorem C118_mpi_accumulate [Add T] (S : Mpi.Setup n) (hδ : 1 ≤ S.delta) (hw : ∀ c i, S.delta ≤ innerWidth (Mpi.bounds S c) i)
    (hdims : ∀ i, S.dims i < 2 ^ 31) (hglob : ∀ i, S.globalHi i + 2 * S.delta + 1 < 2 ^ 31)
    (hbox : ∀ i, -2 ^ 31 ≤ S.globalHi i - S.globalLo i ∧ S.globalHi i - S.globalLo i < 2 ^ 31) (W W' : Mpi.World S T) :
    Machine.MpiAccumulate S W W' ↔ Mpi.Accumulate S W W' :=
  mpiAccumulate_iff (C118_mpi_bounds S hδ hw hdims hglob hbox) (mpi_safe S hδ hw hglob) W W'

/-- 12 × 7 cells on 3 × 2 processes -/
example : 1 ≤ exampleSetup.delta ∧ (∀ i, exampleSetup.dims i < 2 ^ 31) ∧ (∀ i, exampleSetup.globalHi i + 2 * exampleSetup.delta + 1 < 2 ^ 31) ∧
    (∀ i, -2 ^ 31 ≤ exampleSetup.globalHi i - exampleSetup.globalLo i ∧ exampleSetup.globalHi i - exampleSetup.globalLo i < 2 ^ 31) ∧
    ∀ c i, exampleSetup.delta ≤ innerWidth (Mpi.bounds exampleSetup c) i :=
  ⟨by decide, by decide, by decide, by decide, wide_enough _ id exampleSetup_initialised fun i => by fin_cases i <;> decide⟩

/-- **C118** is violated for a global domain with an upper limit next to the largest `int`: the upper limit of the local domain overflows. -/
theorem C118_violated_mpi_bounds : ∃ (S : Mpi.Setup 1), Initialised S id ∧ S.delta = 2 ∧ (∀ i, S.globalLo i = 0) ∧
    ∀ c, Machine.mpiBounds S c = none := by
  refine ⟨⟨fun _ => 0, fun _ => 2 ^ 31 - 1, fun _ => 1, fun _ k => Mpi.cutOf id (2 ^ 31 - 1) 1 k, 2⟩,
    ⟨rounding_id, fun _ _ => rfl, fun i => by fin_cases i; decide, fun i => by fin_cases i; decide⟩, rfl, fun _ => rfl, fun c => ?_⟩
  have hc : ∀ i, (c i).1 = 0 := fun i => by have : (c i).1 < 1 := (c i).2; omega
  have hh : Machine.localHigh _ c 0 = none := by
    unfold Machine.localHigh
    rw [hc]
    decide
  unfold Machine.mpiBounds
  rw [collect_none hh]
  cases Machine.collect _ with
  | none => rfl
  | some b =>
    rw [Option.bind_some]
    cases Machine.collect (Machine.localLow _ c) <;> rfl

/-! ## C119 fields -/

/-- **C119** A field with limits `low`, `high` can be made with `ghost` ghost cells if and only if the limits, extended by the ghost cells, are
`int`s; then these are the limits of the grid. -/
theorem C119_limits (low high : Idx n) (ghost : ℤ) :
    ((∀ i, -2 ^ 31 ≤ low i - ghost ∧ low i - ghost < 2 ^ 31 ∧ -2 ^ 31 ≤ high i + ghost ∧ high i + ghost < 2 ^ 31) →
      Machine.fieldRange low high ghost = some ⟨fun i => low i - ghost, fun i => high i + ghost⟩) ∧
    (¬ (∀ i, -2 ^ 31 ≤ low i - ghost ∧ low i - ghost < 2 ^ 31 ∧ -2 ^ 31 ≤ high i + ghost ∧ high i + ghost < 2 ^ 31) →
      Machine.fieldRange low high ghost = none) := by
  constructor
  · intro h
    unfold Machine.fieldRange
    rw [collect_some fun i => int_some (h i).1 (h i).2.1, Option.bind_some, collect_some fun i => int_some (h i).2.2.1 (h i).2.2.2]
    rfl
  · intro h
    push Not at h
    obtain ⟨i, hi⟩ := h
    unfold Machine.fieldRange
    by_cases hl : -2 ^ 31 ≤ low i - ghost ∧ low i - ghost < 2 ^ 31
    · have hh : Machine.int (high i + ghost) = none := int_none (by
        by_contra hc
        have := hi hl.1 hl.2 (by omega)
        omega)
      rw [collect_none (f := fun i => Machine.int (high i + ghost)) hh]
      cases Machine.collect _ <;> rfl
    · rw [collect_none (f := fun i => Machine.int (low i - ghost)) (i := i) (int_none (by omega))]
      rfl

/-- **C119** A field of `size` cells with a number of ghost cells that is an `int` and not negative can be made if and only if the upper limits are
`int`s. -/
theorem C119_size (size : Idx n) (ghost : ℤ) (hg : 0 ≤ ghost ∧ ghost < 2 ^ 31) (hs : ∀ i, 0 ≤ size i) :
    ((∀ i, size i + ghost - 1 < 2 ^ 31) →
      Machine.fieldRangeOfSize size ghost = some ⟨fun _ => -ghost, fun i => size i + ghost - 1⟩) ∧
    ((∃ i, 2 ^ 31 ≤ size i + ghost - 1) → Machine.fieldRangeOfSize size ghost = none) := by
  unfold Machine.fieldRangeOfSize
  rw [int_some (by omega) (by omega), Option.bind_some, int_some (by omega) (by omega), Option.bind_some]
  constructor
  · intro h
    rw [collect_some (g := fun i => size i + ghost - 1) fun i => ?_]
    · simp
    · have h1 := h i
      have h2 := hs i
      rw [int_some (by omega) (by omega)]
      congr 1
      omega
  · rintro ⟨i, hi⟩
    rw [collect_none (f := fun i => Machine.int (size i + (ghost - 1))) (i := i) (int_none (by omega))]
    rfl

/-- **C119** `grow(s)` changes the limits by `s`, provided that the results are `int`s. -/
theorem C119_grow (r : Range n) (s : ℤ) (h : ∀ i, -2 ^ 31 ≤ r.lo i - s ∧ r.lo i - s < 2 ^ 31 ∧ -2 ^ 31 ≤ r.hi i + s ∧ r.hi i + s < 2 ^ 31) :
    Machine.grow r s = some ⟨fun i => r.lo i - s, fun i => r.hi i + s⟩ := (C119_limits r.lo r.hi s).1 h

variable {K : Type} [Field K] [LinearOrder K] [IsStrictOrderedRing K] [FloorRing K]

/-- **C119** For a position in the domain of a field `positionToIndex` makes no overflow; so C10 to C12 hold for it. -/
theorem C119_position (f : FieldShape K n) (d : Fin n) (hint : -2 ^ 31 < f.range.lo d ∧ f.range.hi d < 2 ^ 31 - 1)
    (hg : 0 ≤ f.ghost) (hw : 2 * f.ghost ≤ f.range.hi d - f.range.lo d) (hext : f.range.hi d - f.range.lo d + 1 < 2 ^ 31)
    (hdom : f.domLo d < f.domHi d) (pos : K) (hpos : f.domLo d ≤ pos ∧ pos ≤ f.domHi d) :
    Machine.positionToIndex f d pos = some (f.positionToIndexOnly d pos) := by
  unfold Machine.positionToIndex FieldShape.positionToIndexOnly
  rw [int_some (by omega) (by omega), Option.bind_some, int_some (by omega) (by omega), Option.bind_some, int_some (by omega) (by omega),
    Option.bind_some, int_some (by omega) (by omega), Option.bind_some]
  set w : ℤ := f.range.hi d - f.range.lo d - 2 * f.ghost + 1 with hwd
  have hw1 : 1 ≤ w := by omega
  have hL : 0 < f.domHi d - f.domLo d := sub_pos.mpr hdom
  have hwK : (0 : K) < (w : K) := by exact_mod_cast (by omega : 0 < w)
  set q : K := (pos - f.domLo d) * (w : K) / (f.domHi d - f.domLo d) with hq
  have hq0 : 0 ≤ q := div_nonneg (mul_nonneg (sub_nonneg.mpr hpos.1) hwK.le) hL.le
  have hq1 : q ≤ w := by
    rw [hq, div_le_iff₀ hL, mul_comm (w : K)]
    exact mul_le_mul_of_nonneg_right (by linarith [hpos.2]) hwK.le
  have hst : (0 : K) ≤ (FieldShape.stag (f.stagger d) : K) ∧ (FieldShape.stag (f.stagger d) : K) ≤ 1 := by
    cases f.stagger d <;> simp [FieldShape.stag]
  refine int_some ?_ ?_
  · refine le_trans (b := f.ghost + f.range.lo d - 1) (by omega) (Int.le_floor.mpr ?_)
    push_cast
    linarith [hst.2]
  · refine lt_of_le_of_lt (b := w + f.ghost + f.range.lo d) ?_ (by omega)
    rw [← Int.lt_add_one_iff, Int.floor_lt]
    push_cast
    linarith [hst.1]

omit [LinearOrder K] [IsStrictOrderedRing K] [FloorRing K] in
/-- **C119** For an index of a field `indexToPosition` makes no overflow. -/
theorem C119_index (f : FieldShape K n) (d : Fin n) (hint : -2 ^ 31 < f.range.lo d ∧ f.range.hi d < 2 ^ 31 - 1)
    (hg : 0 ≤ f.ghost) (hw : 2 * f.ghost ≤ f.range.hi d - f.range.lo d) (hext : f.range.hi d - f.range.lo d + 1 < 2 ^ 31)
    (index : ℤ) (hi : f.range.lo d ≤ index ∧ index ≤ f.range.hi d) :
    Machine.indexToPosition f d index = some (f.indexToPosition d index) := by
  unfold Machine.indexToPosition FieldShape.indexToPosition
  rw [int_some (by omega) (by omega), Option.bind_some, int_some (by omega) (by omega), Option.bind_some, int_some (by omega) (by omega),
    Option.bind_some, int_some (by omega) (by omega), Option.bind_some, int_some (by omega) (by omega)]
  rfl

/-- 100 cells and two ghost cells on each side -/
example : let f : FieldShape ℚ 1 := FieldShape.ofSize ![100] ![0] ![1] ![true] 2
    (-2 ^ 31 < f.range.lo 0 ∧ f.range.hi 0 < 2 ^ 31 - 1) ∧ 0 ≤ f.ghost ∧ 2 * f.ghost ≤ f.range.hi 0 - f.range.lo 0 ∧
      f.range.hi 0 - f.range.lo 0 + 1 < 2 ^ 31 ∧ f.domLo 0 < f.domHi 0 := by decide

/-- **C119** is violated outside of the domain: a field of ten cells in the domain from 0 to 1, and the position 10^9. -/
theorem C119_violated_position : ∃ f : FieldShape ℚ 1, f = FieldShape.ofSize ![10] ![0] ![1] ![false] 0 ∧
    Machine.positionToIndex f 0 (10 ^ 9) = none := by
  refine ⟨_, rfl, ?_⟩
  have h1 : Machine.int 9 = some 9 := rfl
  have h2 : Machine.int 0 = some 0 := rfl
  have h3 : Machine.int 10 = some 10 := rfl
  simp only [Machine.positionToIndex, FieldShape.ofSize, FieldShape.stag]
  norm_num [h1, h2, h3]
  exact int_none (by norm_num)

/-- **C119** is violated for a field of 2^31-1 cells: its two ghost cells do not fit. -/
theorem C119_violated_ghost_cells : (∀ i, (![2 ^ 31 - 1] : Idx 1) i < 2 ^ 31) ∧ Machine.fieldRangeOfSize ![2 ^ 31 - 1] 2 = none :=
  ⟨by decide, (C119_size _ 2 (by decide) (by decide)).2 ⟨0, by decide⟩⟩

end Schnek.Props
