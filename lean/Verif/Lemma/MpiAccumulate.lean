import Verif.Model.MpiAccumulate
import Verif.Lemma.Mpi
import Mathlib.Algebra.BigOperators.Pi
import Mathlib.Data.Fintype.Pi

/-!
# Lemmas about `MPICartSubdivision::accumulate`

The processes and cells of the periodic domain are unrolled: the process with number `m` (any integer) in a dimension stands for
the process `m % dims`, moved by `m / dims` periods. In these coordinates no shift is needed between neighbours.
-/

namespace Schnek.Lemma.MpiAccumulate

open Schnek Schnek.Spec Schnek.Lemma Schnek.Props Schnek.Mpi Schnek.Lemma.Exchange Schnek.Lemma.Mpi Function

variable {n : ℕ} {T : Type}

theorem foldlM_addCell [Add T] (R : Range n) (f : Idx n → T) : ∀ (l : List (Idx n)) (c : Idx n → T) (back : List T),
    (∀ p ∈ l, R.inside p = true) → l.Nodup → ∃ c' : Idx n → T,
      (l.zip (l.map f)).foldlM addCell ((⟨R, c⟩ : GridMap n T), back) =
        some (⟨R, c'⟩, back ++ l.map fun p => c p + f p) ∧
      (∀ p ∈ l, c' p = c p + f p) ∧ ∀ p, p ∉ l → c' p = c p
  | [], c, back, _, _ => ⟨c, by simp, by simp, fun _ _ => rfl⟩
  | p :: l, c, back, h, hn => by
    rw [List.nodup_cons] at hn
    obtain ⟨c', e, h1, h2⟩ := foldlM_addCell R f l (update c p (c p + f p)) (back ++ [c p + f p])
      (fun q hq => h q (List.mem_cons_of_mem _ hq)) hn.2
    have hne : ∀ q ∈ l, q ≠ p := fun q hq hqp => hn.1 (hqp ▸ hq)
    refine ⟨c', ?_, ?_, ?_⟩
    · rw [List.map_cons, List.zip_cons_cons, List.foldlM_cons]
      have : addCell ((⟨R, c⟩ : GridMap n T), back) (p, f p) =
          some (⟨R, update c p (c p + f p)⟩, back ++ [c p + f p]) := by
        simp [addCell, GridMap.read, GridMap.write, h p List.mem_cons_self]
      rw [this]
      refine e.trans ?_
      rw [List.append_assoc, List.map_cons, List.singleton_append]
      congr 4
      refine List.map_congr_left fun q hq => ?_
      rw [update_of_ne (hne q hq)]
    · intro q hq
      rcases List.mem_cons.mp hq with rfl | hq
      · rw [h2 q hn.1, update_self]
      · rw [h1 q hq, update_of_ne (hne q hq)]
    · intro q hq
      rw [List.mem_cons, not_or] at hq
      rw [h2 q hq.2, update_of_ne hq.1]

theorem accHalf_spec [Add T] (S : Setup n) (d : Fin n) (src dst : Coord S → Range n) (dest source : Coord S → Coord S)
    (W : World S T) (k : Coord S → ℤ) (size : Coord S → ℤ)
    (hmove : ∀ c, src (source c) = moveRange d (k c) (dst c))
    (hne : ∀ c i, (dst c).lo i ≤ (dst c).hi i)
    (hnes : ∀ c i, (src c).lo i ≤ (src c).hi i)
    (hsrc : ∀ c p, InBox (src c).lo (src c).hi p → (W c).range.inside p = true)
    (hdst : ∀ c p, InBox (dst c).lo (dst c).hi p → (W c).range.inside p = true)
    (hdisj : ∀ c p, InBox (dst c).lo (dst c).hi p → ¬ InBox (src c).lo (src c).hi p)
    (hsize : ∀ c, exchSize (bounds S c) d = some (size c))
    (hcount : ∀ c, ∏ i, ((src c).hi i - (src c).lo i + 1) = size c)
    (hds : ∀ c, dest (source c) = c) (hsd : ∀ c, source (dest c) = c)
    (hss : ∀ c, size (source c) = size c) (hsd' : ∀ c, size (dest c) = size c) :
    ∃ W' : World S T, (∀ W'', AccHalf S d src dst dest source W W'' ↔ W'' = W') ∧
      (∀ c, (W' c).range = (W c).range) ∧
      (∀ c p, InBox (dst c).lo (dst c).hi p →
        (W' c).cell p = (W c).cell p + (W (source c)).cell (moveBy d (k c) p)) ∧
      (∀ c p, InBox (dst c).lo (dst c).hi p →
        (W' (source c)).cell (moveBy d (k c) p) = (W c).cell p + (W (source c)).cell (moveBy d (k c) p)) ∧
      (∀ c p, ¬ InBox (dst c).lo (dst c).hi p → ¬ InBox (src c).lo (src c).hi p → (W' c).cell p = (W c).cell p) := by
  choose ls els uls using fun c => C01_iterator_enumerates_range (src c) (hnes c)
  choose ld eld uld using fun c => C01_iterator_enumerates_range (dst c) (hne c)
  have hld : ∀ c, ls (source c) = (ld c).map (moveBy d (k c)) := fun c => by
    have h1 := (uld c (ld c)).mpr rfl
    have h2 := iterLoop_move d (k c) h1
    have h3 : (src (source c)).IterLoop (src (source c)).iterBegin ((ld c).map (moveBy d (k c))) := by
      rw [hmove c]; exact h2
    exact ((uls _ _).mp h3).symm
  have hread : ∀ c, (ls c).mapM (W c).read = some ((ls c).map (W c).cell) := fun c =>
    mapM_read _ _ fun p hp => hsrc c p (((els c).mem_iff p).mp hp)
  have hbuf : ∀ c, (ls (source c)).map (W (source c)).cell = (ld c).map fun p => (W (source c)).cell (moveBy d (k c) p) :=
    fun c => by rw [hld, List.map_map]; rfl
  choose c₁ e₁ h1 h2 using fun c => foldlM_addCell (W c).range (fun p => (W (source c)).cell (moveBy d (k c) p)) (ld c)
    (W c).cell [] (fun p hp => hdst c p (((eld c).mem_iff p).mp hp)) (eld c).nodup
  -- the values sent back, as a function of the cell to which they are written
  let back : Coord S → List T := fun c => (ld c).map fun p => (W c).cell p + (W (source c)).cell (moveBy d (k c) p)
  have hback : ∀ c, back (dest c) = (ls c).map fun q =>
      (W (dest c)).cell (moveBy d (-k (dest c)) q) + (W c).cell q := fun c => by
    have h := hld (dest c)
    rw [hsd] at h
    rw [h, List.map_map]
    refine List.map_congr_left fun p _ => ?_
    have hb : moveBy d (-k (dest c)) (moveBy d (k (dest c)) p) = p := by
      funext i
      rw [moveBy_apply, moveBy_apply]
      split <;> ring
    simp only [comp_apply, hb, hsd]
  choose c₂ e₂ h3 h4 using fun c => foldlM_write (W c).range
    (fun q => (W (dest c)).cell (moveBy d (-k (dest c)) q) + (W c).cell q) (ls c)
    (c₁ c) fun p hp => hsrc c p (((els c).mem_iff p).mp hp)
  refine ⟨fun c => ⟨(W c).range, c₂ c⟩, fun W'' => ⟨?_, ?_⟩, fun c => rfl, ?_, ?_, ?_⟩
  · rintro ⟨bufs, bk, sz, W₁, s1, s2, s3, s4, s5, s6⟩
    funext c
    have hb : ∀ c, bufs c = (ls c).map (W c).cell := fun c => by
      obtain ⟨l, a1, a2, -⟩ := s2 c
      have := (uls c l).mp a1
      subst this
      rw [hread] at a2
      exact (Option.some.inj a2).symm
    have hm : ∀ c, W₁ c = ⟨(W c).range, c₁ c⟩ ∧ bk c = back c := fun c => by
      obtain ⟨l, a1, a2, a3⟩ := s4 c
      have := (uld c l).mp a1
      subst this
      rw [hb, hbuf] at a3
      have := (e₁ c).symm.trans a3
      rw [List.nil_append] at this
      have := Option.some.inj this
      rw [Prod.mk.injEq] at this
      exact ⟨this.1.symm, this.2.symm⟩
    obtain ⟨l, a1, a2, a3⟩ := s6 c
    have := (uls c l).mp a1
    subst this
    rw [(hm c).1, (hm (dest c)).2, hback] at a3
    exact (Option.some.inj ((e₂ c).symm.trans a3)).symm
  · rintro rfl
    refine ⟨fun c => (ls c).map (W c).cell, back, size, fun c => ⟨(W c).range, c₁ c⟩, hsize,
      fun c => ⟨ls c, (uls c _).mpr rfl, hread c, ?_⟩,
      fun c => ⟨hds c, hss c⟩, fun c => ⟨ld c, (uld c _).mpr rfl, ?_, ?_⟩, fun c => ⟨hsd c, hsd' c⟩,
      fun c => ⟨ls c, (uls c _).mpr rfl, ?_, ?_⟩⟩
    · rw [List.length_map, length_iterLoop (hnes c) ((uls c _).mpr rfl), hcount]
    · show _ = ((ls (source c)).map (W (source c)).cell).length
      rw [hbuf, List.length_map]
    · show ((ld c).zip ((ls (source c)).map (W (source c)).cell)).foldlM _ _ = _
      rw [hbuf]
      exact e₁ c
    · rw [hback, List.length_map]
    · rw [hback]; exact e₂ c
  · intro c p hp
    show c₂ c p = _
    rw [h4 c p (fun h => hdisj c p hp (((els c).mem_iff p).mp h)), h1 c p (((eld c).mem_iff p).mpr hp)]
  · intro c p hp
    show c₂ (source c) _ = _
    have hm : moveBy d (k c) p ∈ ls (source c) := by
      rw [hld]
      exact List.mem_map_of_mem (((eld c).mem_iff p).mpr hp)
    have hb : moveBy d (-k c) (moveBy d (k c) p) = p := by
      funext i
      rw [moveBy_apply, moveBy_apply]
      split <;> ring
    rw [h3 _ _ hm]
    simp only [hds]
    rw [hb]
  · intro c p hp hq
    show c₂ c p = _
    rw [h4 c p (fun h => hq (((els c).mem_iff p).mp h)), h2 c p (fun h => hp (((eld c).mem_iff p).mp h))]

/-! ## unrolled coordinates -/

variable {S : Setup n}

/-- first inner cell of the unrolled process `m` -/
def ust (S : Setup n) (i : Fin n) (m : ℤ) : ℤ :=
  start S i (m % (S.dims i : ℤ)).toNat + (S.globalHi i + 1) * (m / (S.dims i : ℤ))

/-- the process for which the unrolled process `m` stands -/
def cof (hD : ∀ i, 0 < S.dims i) (m : Fin n → ℤ) : Coord S := fun i =>
  ⟨(m i % (S.dims i : ℤ)).toNat, by
    have h1 := Int.emod_nonneg (m i) (show (S.dims i : ℤ) ≠ 0 by have := hD i; omega)
    have h2 := Int.emod_lt_of_pos (m i) (show (0 : ℤ) < S.dims i by have := hD i; omega)
    omega⟩

/-- the cell for which the unrolled cell `p`, seen from the unrolled process `m`, stands -/
def pos (S : Setup n) (m : Fin n → ℤ) (p : Idx n) : Idx n := fun i => p i - (S.globalHi i + 1) * (m i / (S.dims i : ℤ))

/-- value of the unrolled cell -/
def val (hD : ∀ i, 0 < S.dims i) (W : World S T) (m : Fin n → ℤ) (p : Idx n) : T := (W (cof hD m)).cell (pos S m p)

theorem succ_cases (D m : ℤ) (hD : 0 < D) :
    (m % D + 1 = D ∧ (m + 1) % D = 0 ∧ (m + 1) / D = m / D + 1) ∨
    (m % D + 1 < D ∧ (m + 1) % D = m % D + 1 ∧ (m + 1) / D = m / D) := by
  have h1 := Int.emod_nonneg m hD.ne'
  have h2 := Int.emod_lt_of_pos m hD
  have h3 := Int.emod_add_mul_ediv m D
  by_cases h : m % D + 1 = D
  · left
    have := (Int.ediv_emod_unique (a := m + 1) (b := D) (r := 0) (q := m / D + 1) hD).mpr
      ⟨by linear_combination h3 - h, le_rfl, hD⟩
    exact ⟨h, this.2, this.1⟩
  · right
    have := (Int.ediv_emod_unique (a := m + 1) (b := D) (r := m % D + 1) (q := m / D) hD).mpr
      ⟨by linear_combination h3, by omega, by omega⟩
    exact ⟨by omega, this.2, this.1⟩

theorem ust_succ (hD : ∀ i, 0 < S.dims i) (i : Fin n) (m : ℤ) :
    ust S i (m + 1) = start S i ((m % (S.dims i : ℤ)).toNat + 1) + (S.globalHi i + 1) * (m / (S.dims i : ℤ)) := by
  have hp : (0 : ℤ) < S.dims i := by have := hD i; omega
  have h1 := Int.emod_nonneg m hp.ne'
  unfold ust
  rcases succ_cases _ m hp with ⟨a, b, c⟩ | ⟨a, b, c⟩
  · rw [b, c, show (m % (S.dims i : ℤ)).toNat + 1 = S.dims i by omega, start_dims S i (hD i), Int.toNat_zero, start_zero]
    ring
  · rw [b, c, show (m % (S.dims i : ℤ) + 1).toNat = (m % (S.dims i : ℤ)).toNat + 1 by omega]

theorem cof_val (hD : ∀ i, 0 < S.dims i) (m : Fin n → ℤ) (i : Fin n) :
    (cof hD m i).1 = (m i % (S.dims i : ℤ)).toNat := rfl

theorem box_iff (hD : ∀ i, 0 < S.dims i) (m : Fin n → ℤ) (p : Idx n) :
    InBox (bounds S (cof hD m)).size.lo (bounds S (cof hD m)).size.hi (pos S m p) ↔
      ∀ i, ust S i (m i) - S.delta ≤ p i ∧ p i < ust S i (m i + 1) + S.delta := by
  refine forall_congr' fun i => ?_
  rw [size_lo, size_hi, ust_succ hD, cof_val, ust, pos]
  constructor <;> intro h <;> constructor <;> linarith [h.1, h.2]

theorem next_cof (hD : ∀ i, 0 < S.dims i) (m : Fin n → ℤ) (d : Fin n) :
    next S (cof hD m) d = cof hD (update m d (m d + 1)) := by
  funext i
  by_cases hi : i = d
  · subst hi
    have hp : (0 : ℤ) < S.dims i := by have := hD i; omega
    have h1 := Int.emod_nonneg (m i) hp.ne'
    apply Fin.ext
    rw [next_val, cof_val, cof_val, update_self]
    rcases succ_cases _ (m i) hp with ⟨a, b, c⟩ | ⟨a, b, c⟩
    · rw [b, if_pos (by omega)]; rfl
    · rw [b, if_neg (by omega)]; omega
  · apply Fin.ext
    rw [next_other S _ hi, cof_val, cof_val, update_of_ne hi]

theorem prev_cof (hD : ∀ i, 0 < S.dims i) (m : Fin n → ℤ) (d : Fin n) :
    prev S (cof hD m) d = cof hD (update m d (m d - 1)) := by
  have h := next_cof hD (update m d (m d - 1)) d
  rw [update_self, sub_add_cancel, update_idem, update_eq_self] at h
  rw [← h, prev_next]

theorem pos_next (hD : ∀ i, 0 < S.dims i) (m : Fin n → ℤ) (d : Fin n) (p : Idx n) :
    moveBy d (hiShift S d (cof hD m)) (pos S m p) = pos S (update m d (m d + 1)) p := by
  funext i
  rw [moveBy_apply]
  by_cases hi : i = d
  · subst hi
    have hp : (0 : ℤ) < S.dims i := by have := hD i; omega
    have h1 := Int.emod_nonneg (m i) hp.ne'
    rw [if_pos rfl, hiShift, cof_val, pos, pos, update_self]
    rcases succ_cases _ (m i) hp with ⟨a, b, c⟩ | ⟨a, b, c⟩
    · rw [c, if_pos (by omega)]; ring
    · rw [c, if_neg (by omega)]; ring
  · rw [if_neg hi, pos, pos, update_of_ne hi]

theorem pos_prev (hD : ∀ i, 0 < S.dims i) (m : Fin n → ℤ) (d : Fin n) (p : Idx n) :
    moveBy d (loShift S d (cof hD m)) (pos S m p) = pos S (update m d (m d - 1)) p := by
  funext i
  rw [moveBy_apply]
  by_cases hi : i = d
  · subst hi
    have hp : (0 : ℤ) < S.dims i := by have := hD i; omega
    have h1 := Int.emod_nonneg (m i - 1) hp.ne'
    rw [if_pos rfl, loShift, cof_val, pos, pos, update_self]
    have hc := succ_cases _ (m i - 1) hp
    rw [sub_add_cancel] at hc
    rcases hc with ⟨a, b, c⟩ | ⟨a, b, c⟩
    · rw [c, if_pos (by omega)]; ring
    · rw [c, if_neg (by omega)]; ring
  · rw [if_neg hi, pos, pos, update_of_ne hi]

theorem ust_step (hS : Good S) (hD : ∀ i, 0 < S.dims i) (i : Fin n) (m : ℤ) : ust S i m + S.delta ≤ ust S i (m + 1) := by
  have h := hS.wide (cof hD (fun _ => m)) i
  rw [innerWidth_eq, cof_val] at h
  rw [ust_succ hD, ust]
  linarith

theorem ust_mono (hS : Good S) (hD : ∀ i, 0 < S.dims i) (i : Fin n) {m m' : ℤ} (h : m ≤ m') : ust S i m ≤ ust S i m' := by
  obtain ⟨k, rfl⟩ := Int.le.dest h
  clear h
  induction k with
  | zero => simp
  | succ k ih =>
    refine ih.trans ?_
    have := ust_step hS hD i (m + k)
    have := hS.delta
    push_cast
    rw [← add_assoc]
    linarith

/-- the unrolled processes whose local domain contains `x` in dimension `i` -/
noncomputable def copies (S : Setup n) (i : Fin n) (x : ℤ) : Finset ℤ :=
  (Finset.Icc ((S.dims i : ℤ) * (x / (S.globalHi i + 1) - 3)) ((S.dims i : ℤ) * (x / (S.globalHi i + 1) + 3))).filter
    fun m => ust S i m - S.delta ≤ x ∧ x < ust S i (m + 1) + S.delta

theorem ust_period (hD : ∀ i, 0 < S.dims i) (i : Fin n) (t : ℤ) : ust S i ((S.dims i : ℤ) * t) = (S.globalHi i + 1) * t := by
  have hp : (S.dims i : ℤ) ≠ 0 := by have := hD i; omega
  rw [ust, Int.mul_emod_right, Int.mul_ediv_cancel_left _ hp, Int.toNat_zero, start_zero, zero_add]

theorem delta_le (hS : Good S) (hD : ∀ i, 0 < S.dims i) (i : Fin n) : S.delta ≤ S.globalHi i + 1 := by
  have h1 := ust_period (S := S) hD i 0
  have h2 := ust_period (S := S) hD i 1
  have h3 := ust_mono hS hD i (show (S.dims i : ℤ) * 0 + 1 ≤ S.dims i * 1 by have := hD i; omega)
  have h4 := ust_step hS hD i ((S.dims i : ℤ) * 0)
  linarith

theorem mem_copies (hS : Good S) (hD : ∀ i, 0 < S.dims i) (i : Fin n) (x m : ℤ) :
    m ∈ copies S i x ↔ ust S i m - S.delta ≤ x ∧ x < ust S i (m + 1) + S.delta := by
  rw [copies, Finset.mem_filter, Finset.mem_Icc]
  refine ⟨fun h => h.2, fun h => ⟨?_, h⟩⟩
  have hN := delta_le hS hD i
  have hδ := hS.delta
  have hp : (0 : ℤ) < S.dims i := by have := hD i; omega
  set N := S.globalHi i + 1
  set D := (S.dims i : ℤ)
  have hN0 : 0 < N := by omega
  have hx := Int.emod_add_mul_ediv x N
  have hx0 := Int.emod_nonneg x hN0.ne'
  have hx1 := Int.emod_lt_of_pos x hN0
  constructor
  · by_contra hc
    have h1 := ust_mono hS hD i (show m + 1 ≤ D * (x / N - 3) by omega)
    rw [ust_period hD] at h1
    have : N * (x / N - 3) = N * (x / N) - 3 * N := by ring
    change _ ≤ N * (x / N - 3) at h1
    linarith [h.2]
  · by_contra hc
    have h1 := ust_mono hS hD i (show D * (x / N + 3) ≤ m by omega)
    rw [ust_period hD] at h1
    have : N * (x / N + 3) = N * (x / N) + 3 * N := by ring
    change N * (x / N + 3) ≤ _ at h1
    linarith [h.1]

/-- if `o` owns `x`, only its neighbours have copies -/
theorem sum_copies [AddCommMonoid T] (hS : Good S) (hD : ∀ i, 0 < S.dims i) (i : Fin n) (x o : ℤ) (h1 : ust S i o ≤ x)
    (h2 : x < ust S i (o + 1)) (f : ℤ → T) :
    ∑ m ∈ copies S i x, f m = (if x < ust S i o + S.delta then f (o - 1) else 0) + f o +
      if ust S i (o + 1) - S.delta ≤ x then f (o + 1) else 0 := by
  have hδ := hS.delta
  have hset : copies S i x = ({o - 1, o, o + 1} : Finset ℤ).filter
      fun m => ust S i m - S.delta ≤ x ∧ x < ust S i (m + 1) + S.delta := by
    ext m
    rw [mem_copies hS hD, Finset.mem_filter]
    refine ⟨fun h => ⟨?_, h⟩, fun h => h.2⟩
    simp only [Finset.mem_insert, Finset.mem_singleton]
    by_contra hc
    rcases (by omega : m + 1 ≤ o - 1 ∨ o + 2 ≤ m) with h' | h'
    · have a := ust_mono hS hD i h'
      have b := ust_step hS hD i (o - 1)
      rw [sub_add_cancel] at b
      omega
    · have a := ust_mono hS hD i h'
      have b := ust_step hS hD i (o + 1)
      rw [show o + 1 + 1 = o + 2 by ring] at b
      omega
  have b1 := ust_step hS hD i (o - 1)
  have b2 := ust_step hS hD i o
  have b3 := ust_step hS hD i (o + 1)
  rw [sub_add_cancel] at b1
  rw [hset, Finset.sum_filter, Finset.sum_insert (by simp only [Finset.mem_insert, Finset.mem_singleton]; omega),
    Finset.sum_insert (by simp only [Finset.mem_singleton]; omega), Finset.sum_singleton, sub_add_cancel,
    if_pos (show ust S i o - S.delta ≤ x ∧ x < ust S i (o + 1) + S.delta by omega), add_assoc]
  rw [← add_assoc]
  congr 1
  · congr 1
    exact if_congr ⟨fun h => h.2, fun h => ⟨by omega, h⟩⟩ rfl rfl
  · refine if_congr ⟨fun h => h.1, fun h => ⟨h, ?_⟩⟩ rfl rfl
    rw [add_assoc] at b3
    omega

/-! ## one dimension -/

theorem ghost_lo_iff (hS : Good S) (c : Coord S) (d : Fin n) (p : Idx n) :
    InBox ((bounds S c).ghostDomain d .min).lo ((bounds S c).ghostDomain d .min).hi p ↔
      InBox (bounds S c).size.lo (bounds S c).size.hi p ∧ p d < start S d (c d).1 := by
  have := hS.wide c d
  have := hS.delta
  rw [ghost_iff _ d .min (by omega) (by rw [bounds_delta]; omega)]
  simp only [size_lo, bounds_delta]
  rw [sub_add_cancel]

theorem ghost_hi_iff (hS : Good S) (c : Coord S) (d : Fin n) (p : Idx n) :
    InBox ((bounds S c).ghostDomain d .max).lo ((bounds S c).ghostDomain d .max).hi p ↔
      InBox (bounds S c).size.lo (bounds S c).size.hi p ∧ start S d ((c d).1 + 1) ≤ p d := by
  have := hS.wide c d
  have := hS.delta
  rw [ghost_iff _ d .max (by omega) (by rw [bounds_delta]; omega)]
  simp only [size_hi, bounds_delta]
  refine and_congr_right fun _ => ⟨fun h => by omega, fun h => by omega⟩

theorem source_lo_iff (hS : Good S) (c : Coord S) (d : Fin n) (p : Idx n) :
    InBox ((bounds S c).ghostSourceDomain d .min).lo ((bounds S c).ghostSourceDomain d .min).hi p ↔
      InBox (bounds S c).size.lo (bounds S c).size.hi p ∧ start S d (c d).1 ≤ p d ∧ p d < start S d (c d).1 + S.delta := by
  have := hS.wide c d
  have := hS.delta
  rw [source_iff _ d .min (by rw [bounds_delta]; omega) (by rw [bounds_delta]; omega)]
  simp only [size_lo, bounds_delta]
  refine and_congr_right fun _ => ⟨fun h => by omega, fun h => by omega⟩

theorem source_hi_iff (hS : Good S) (c : Coord S) (d : Fin n) (p : Idx n) :
    InBox ((bounds S c).ghostSourceDomain d .max).lo ((bounds S c).ghostSourceDomain d .max).hi p ↔
      InBox (bounds S c).size.lo (bounds S c).size.hi p ∧
        start S d ((c d).1 + 1) - S.delta ≤ p d ∧ p d < start S d ((c d).1 + 1) := by
  have := hS.wide c d
  have := hS.delta
  rw [source_iff _ d .max (by rw [bounds_delta]; omega) (by rw [bounds_delta]; omega)]
  simp only [size_hi, bounds_delta]
  refine and_congr_right fun _ => ⟨fun h => by omega, fun h => by omega⟩

/-- the unrolled local domain of the unrolled process `m` -/
def UBox (S : Setup n) (m : Fin n → ℤ) (p : Idx n) : Prop :=
  ∀ i, ust S i (m i) - S.delta ≤ p i ∧ p i < ust S i (m i + 1) + S.delta

theorem pos_lo (hD : ∀ i, 0 < S.dims i) (m : Fin n → ℤ) (p : Idx n) (d : Fin n) (a : ℤ) :
    pos S m p d < start S d (cof hD m d).1 + a ↔ p d < ust S d (m d) + a := by
  rw [cof_val, ust, pos]; constructor <;> intro h <;> linarith

theorem pos_hi (hD : ∀ i, 0 < S.dims i) (m : Fin n → ℤ) (p : Idx n) (d : Fin n) (a : ℤ) :
    pos S m p d < start S d ((cof hD m d).1 + 1) + a ↔ p d < ust S d (m d + 1) + a := by
  rw [ust_succ hD, cof_val, pos]; constructor <;> intro h <;> linarith

theorem ubox_update {d : Fin n} (m : Fin n → ℤ) (p : Idx n) (x : ℤ) (hb : UBox S m p) (h1 : ust S d x - S.delta ≤ p d)
    (h2 : p d < ust S d (x + 1) + S.delta) : UBox S (update m d x) p := by
  intro i
  by_cases hi : i = d
  · subst hi; rw [update_self]; exact ⟨h1, h2⟩
  · rw [update_of_ne hi]; exact hb i

/-- what one dimension of `accumulate` does, without any law for `+` -/
theorem accumulateDim_facts [Add T] (hS : Good S) (hD : ∀ i, 0 < S.dims i) (d : Fin n) (W : World S T)
    (hcov : ∀ c, ∀ p, InBox (bounds S c).size.lo (bounds S c).size.hi p → (W c).range.inside p = true) :
    ∃ W₁ W' : World S T, (∀ W'', Mpi.AccumulateDim S d W W'' ↔ W'' = W') ∧ (∀ c, (W' c).range = (W c).range) ∧
      (∀ m p, UBox S m p → p d < ust S d (m d) →
        val hD W₁ m p = val hD W m p + val hD W (update m d (m d - 1)) p ∧
        val hD W₁ (update m d (m d - 1)) p = val hD W m p + val hD W (update m d (m d - 1)) p) ∧
      (∀ m p, UBox S m p → ust S d (m d) ≤ p d → ¬ (ust S d (m d + 1) - S.delta ≤ p d ∧ p d < ust S d (m d + 1)) →
        val hD W₁ m p = val hD W m p) ∧
      (∀ m p, UBox S m p → ust S d (m d + 1) ≤ p d →
        val hD W' m p = val hD W₁ m p + val hD W₁ (update m d (m d + 1)) p ∧
        val hD W' (update m d (m d + 1)) p = val hD W₁ m p + val hD W₁ (update m d (m d + 1)) p) ∧
      (∀ m p, UBox S m p → p d < ust S d (m d + 1) → ¬ (ust S d (m d) ≤ p d ∧ p d < ust S d (m d) + S.delta) →
        val hD W' m p = val hD W₁ m p) ∧
      (∀ c p, ¬ InBox (bounds S c).size.lo (bounds S c).size.hi p → (W' c).cell p = (W c).cell p) := by
  have hδ := hS.delta
  have hE : ∀ c i, (bounds S c).size.lo i ≤ (bounds S c).size.hi i := fun c i => by
    have := hS.ext c i; have := hS.wide c i; omega
  have hneg : ∀ c b i, ((bounds S c).ghostDomain d b).lo i ≤ ((bounds S c).ghostDomain d b).hi i := fun c b i => by
    have h := (slab_shape (bounds S c) d b).1
    by_cases hi : i = d
    · subst hi; have := h.1; rw [bounds_delta] at this; omega
    · rw [(h.2 i hi).1, (h.2 i hi).2]; exact hE c i
  have hnes : ∀ c b i, ((bounds S c).ghostSourceDomain d b).lo i ≤ ((bounds S c).ghostSourceDomain d b).hi i :=
    fun c b i => by
    have h := (slab_shape (bounds S c) d b).2
    by_cases hi : i = d
    · subst hi; have := h.1; rw [bounds_delta] at this; omega
    · rw [(h.2 i hi).1, (h.2 i hi).2]; exact hE c i
  have hcount : ∀ c b, ∏ i, (((bounds S c).ghostSourceDomain d b).hi i - ((bounds S c).ghostSourceDomain d b).lo i + 1) =
      slab S d c := fun c b =>
    prod_slab _ d (bounds S c) _ (slab_shape (bounds S c) d b).2.1 (slab_shape (bounds S c) d b).2.2
  obtain ⟨W₁, u1, r1, a1, b1, c1⟩ := accHalf_spec S d (fun c => (bounds S c).ghostSourceDomain d .max)
    (fun c => (bounds S c).ghostDomain d .min) (fun c => next S c d) (fun c => prev S c d) W (loShift S d) (slab S d)
    (fun c => lo_move S c d) (fun c => hneg c _) (fun c => hnes c _)
    (fun c p hp => hcov c p ((source_hi_iff hS c d p).mp hp).1)
    (fun c p hp => hcov c p ((ghost_lo_iff hS c d p).mp hp).1)
    (fun c p hp hq => by
      have h1 := ((ghost_lo_iff hS c d p).mp hp).2
      have h2 := ((source_hi_iff hS c d p).mp hq).2
      have h3 := hS.wide c d
      rw [innerWidth_eq] at h3
      omega)
    (fun c => hS.exchSize c d) (fun c => hcount c _) (fun c => next_prev S c d) (fun c => prev_next S c d)
    (fun c => slab_prev c d) (fun c => slab_next c d)
  obtain ⟨W', u2, r2, a2, b2, c2⟩ := accHalf_spec S d (fun c => (bounds S c).ghostSourceDomain d .min)
    (fun c => (bounds S c).ghostDomain d .max) (fun c => prev S c d) (fun c => next S c d) W₁ (hiShift S d) (slab S d)
    (fun c => hi_move S c d) (fun c => hneg c _) (fun c => hnes c _)
    (fun c p hp => by rw [r1]; exact hcov c p ((source_lo_iff hS c d p).mp hp).1)
    (fun c p hp => by rw [r1]; exact hcov c p ((ghost_hi_iff hS c d p).mp hp).1)
    (fun c p hp hq => by
      have h1 := ((ghost_hi_iff hS c d p).mp hp).2
      have h2 := ((source_lo_iff hS c d p).mp hq).2
      have h3 := hS.wide c d
      rw [innerWidth_eq] at h3
      omega)
    (fun c => hS.exchSize c d) (fun c => hcount c _) (fun c => prev_next S c d) (fun c => next_prev S c d)
    (fun c => slab_next c d) (fun c => slab_prev c d)
  -- the four facts in unrolled coordinates
  have A1 : ∀ m p, UBox S m p → p d < ust S d (m d) →
      val hD W₁ m p = val hD W m p + val hD W (update m d (m d - 1)) p ∧
      val hD W₁ (update m d (m d - 1)) p = val hD W m p + val hD W (update m d (m d - 1)) p := by
    intro m p hb hp
    have hg := (ghost_lo_iff hS (cof hD m) d (pos S m p)).mpr ⟨(box_iff hD m p).mpr hb, by
      have := (pos_lo hD m p d 0).mpr (by omega); omega⟩
    have e1 := a1 _ _ hg
    have e2 := b1 _ _ hg
    simp only [prev_cof, pos_prev] at e1 e2
    exact ⟨e1, e2⟩
  have A3 : ∀ m p, UBox S m p → ust S d (m d) ≤ p d → ¬ (ust S d (m d + 1) - S.delta ≤ p d ∧ p d < ust S d (m d + 1)) →
      val hD W₁ m p = val hD W m p := by
    intro m p hb hp hq
    have l0 := pos_lo hD m p d 0
    have h0 := pos_hi hD m p d 0
    have hm := pos_hi hD m p d (-S.delta)
    refine c1 _ _ (fun h => ?_) (fun h => ?_)
    · have := ((ghost_lo_iff hS _ d _).mp h).2
      omega
    · have := ((source_hi_iff hS _ d _).mp h).2
      omega
  have B1 : ∀ m p, UBox S m p → ust S d (m d + 1) ≤ p d →
      val hD W' m p = val hD W₁ m p + val hD W₁ (update m d (m d + 1)) p ∧
      val hD W' (update m d (m d + 1)) p = val hD W₁ m p + val hD W₁ (update m d (m d + 1)) p := by
    intro m p hb hp
    have hg := (ghost_hi_iff hS (cof hD m) d (pos S m p)).mpr ⟨(box_iff hD m p).mpr hb, by
      have := pos_hi hD m p d 0; omega⟩
    have e1 := a2 _ _ hg
    have e2 := b2 _ _ hg
    simp only [next_cof, pos_next] at e1 e2
    exact ⟨e1, e2⟩
  have B3 : ∀ m p, UBox S m p → p d < ust S d (m d + 1) → ¬ (ust S d (m d) ≤ p d ∧ p d < ust S d (m d) + S.delta) →
      val hD W' m p = val hD W₁ m p := by
    intro m p hb hp hq
    have l0 := pos_lo hD m p d 0
    have h0 := pos_hi hD m p d 0
    have hm := pos_lo hD m p d S.delta
    refine c2 _ _ (fun h => ?_) (fun h => ?_)
    · have := ((ghost_hi_iff hS _ d _).mp h).2
      omega
    · have := ((source_lo_iff hS _ d _).mp h).2
      omega
  refine ⟨W₁, W', fun W'' => ⟨?_, ?_⟩, fun c => (r2 c).trans (r1 c), A1, A3, B1, B3, ?_⟩
  · rintro ⟨W₁', h1, h2⟩
    rw [u1] at h1
    subst h1
    exact (u2 _).mp h2
  · rintro rfl
    exact ⟨W₁, (u1 _).mpr rfl, (u2 _).mpr rfl⟩
  · intro c p hp
    rw [c2 c p, c1 c p]
    · exact fun h => hp ((ghost_lo_iff hS c d p).mp h).1
    · exact fun h => hp ((source_hi_iff hS c d p).mp h).1
    · exact fun h => hp ((ghost_hi_iff hS c d p).mp h).1
    · exact fun h => hp ((source_lo_iff hS c d p).mp h).1

theorem accumulateDim_spec [AddCommMonoid T] (hS : Good S) (hD : ∀ i, 0 < S.dims i) (d : Fin n) (W : World S T)
    (hcov : ∀ c, ∀ p, InBox (bounds S c).size.lo (bounds S c).size.hi p → (W c).range.inside p = true) :
    ∃ W' : World S T, (∀ W'', Mpi.AccumulateDim S d W W'' ↔ W'' = W') ∧ (∀ c, (W' c).range = (W c).range) ∧
      (∀ m p, UBox S m p → ((∀ x, ust S d x + 2 * S.delta ≤ ust S d (x + 1)) ∨ ust S d (m d) ≤ p d) →
        val hD W' m p = ∑ x ∈ copies S d (p d), val hD W (update m d x) p) ∧
      (∀ c p, ¬ InBox (bounds S c).size.lo (bounds S c).size.hi p → (W' c).cell p = (W c).cell p) := by
  have hδ := hS.delta
  obtain ⟨W₁, W', u, r, A1', A3, B1', B3, o⟩ := accumulateDim_facts hS hD d W hcov
  have A1 : ∀ m p, UBox S m p → p d < ust S d (m d) →
      val hD W₁ m p = val hD W m p + val hD W (update m d (m d - 1)) p ∧
      val hD W₁ (update m d (m d - 1)) p = val hD W (update m d (m d - 1)) p + val hD W m p := fun m p h1 h2 =>
    ⟨(A1' m p h1 h2).1, by rw [(A1' m p h1 h2).2, add_comm]⟩
  have B1 : ∀ m p, UBox S m p → ust S d (m d + 1) ≤ p d →
      val hD W' m p = val hD W₁ m p + val hD W₁ (update m d (m d + 1)) p ∧
      val hD W' (update m d (m d + 1)) p = val hD W₁ (update m d (m d + 1)) p + val hD W₁ m p := fun m p h1 h2 =>
    ⟨(B1' m p h1 h2).1, by rw [(B1' m p h1 h2).2, add_comm]⟩
  -- the local domains of the neighbours
  have hup := fun m p x => ubox_update (S := S) (d := d) m p x
  -- the value in the owner after the first half, and in the end
  have own : ∀ m p, UBox S m p → ust S d (m d) ≤ p d → p d < ust S d (m d + 1) →
      val hD W₁ m p = val hD W m p + (if ust S d (m d + 1) - S.delta ≤ p d then val hD W (update m d (m d + 1)) p else 0) := by
    intro m p hb h1 h2
    by_cases hc : ust S d (m d + 1) - S.delta ≤ p d
    · rw [if_pos hc]
      have s1 := ust_step hS hD d (m d + 1)
      have h := (A1 (update m d (m d + 1)) p (hup m p _ hb hc (by omega)) (by rw [update_self]; exact h2)).2
      rwa [update_self, update_idem, add_sub_cancel_right, update_eq_self] at h
    · rw [if_neg hc, add_zero, A3 m p hb h1 (by omega)]
  refine ⟨W', u, r, ?_, o⟩
  · intro m p hb hw
    have hbd := hb d
    have s0 := ust_step hS hD d (m d)
    have s1 := ust_step hS hD d (m d + 1)
    have sm := ust_step hS hD d (m d - 1)
    rw [sub_add_cancel] at sm
    by_cases hl : p d < ust S d (m d)
    · -- lower ghost cell
      have hw' : ust S d (m d - 1) + 2 * S.delta ≤ ust S d (m d) := by
        rcases hw with hw | hw
        · have := hw (m d - 1)
          rwa [sub_add_cancel] at this
        · omega
      rw [B3 m p hb (by omega) (by omega), (A1 m p hb hl).1,
        sum_copies hS hD d (p d) (m d - 1) (by omega) (by rw [sub_add_cancel]; exact hl), sub_add_cancel,
        if_neg (by omega), if_pos (by omega), update_eq_self, zero_add, add_comm]
    · push Not at hl
      by_cases hh : ust S d (m d + 1) ≤ p d
      · -- upper ghost cell
        have ho := own (update m d (m d + 1)) p (hup m p _ hb (by omega) (by omega)) (by rw [update_self]; exact hh)
          (by rw [update_self]; omega)
        rw [update_self, update_idem] at ho
        rw [(B1 m p hb hh).1, A3 m p hb hl (by omega), ho, sum_copies hS hD d (p d) (m d + 1) hh (by omega),
          if_pos (show p d < ust S d (m d + 1) + S.delta by omega), add_sub_cancel_right, update_eq_self, ← add_assoc]
      · push Not at hh
        -- inner cell
        rw [sum_copies hS hD d (p d) (m d) hl hh, update_eq_self]
        by_cases hc : p d < ust S d (m d) + S.delta
        · have hb' := hup m p (m d - 1) hb (by omega) (by rw [sub_add_cancel]; exact hc)
          have hB := (B1 _ p hb' (by rw [update_self, sub_add_cancel]; exact hl)).2
          rw [update_self, update_idem, sub_add_cancel, update_eq_self] at hB
          have hA := A3 _ p hb' (by rw [update_self]; omega) (by rw [update_self, sub_add_cancel]; omega)
          rw [hB, hA, own m p hb hl hh, if_pos hc, add_comm, add_assoc]
        · rw [if_neg hc, zero_add, B3 m p hb hh (by omega), own m p hb hl hh]

end Schnek.Lemma.MpiAccumulate
