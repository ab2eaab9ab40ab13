import Verif.Model.Mpi
import Verif.Lemma.Exchange
import Mathlib.Algebra.Order.BigOperators.Ring.Finset
import Mathlib.Tactic.LinearCombination
import Mathlib.Tactic.FieldSimp

/-!
# Lemmas about the MPI subdivision
-/

namespace Schnek.Lemma.Mpi

open Schnek Schnek.Spec Schnek.Lemma Schnek.Props Schnek.Mpi Schnek.Lemma.Exchange Function

variable {n : ℕ} {T : Type}

theorem iterLoop_move {r : Range n} (d : Fin n) (k : ℤ) {it : RangeIter n} {l : List (Idx n)} (h : r.IterLoop it l) :
    (moveRange d k r).IterLoop (moveIter d k it) (l.map (moveBy d k)) := by
  induction h with
  | done he => exact .done (by rw [he]; rfl)
  | step hne _ ih =>
    rename_i it l _
    rw [List.map_cons]
    refine .step (it := moveIter d k it) (fun h => hne ?_) (by rw [increment_move]; exact ih)
    have h1 := congrArg RangeIter.pos h
    have h2 := congrArg RangeIter.atEnd h
    simp only [moveIter, Range.iterEnd, moveRange] at h1 h2
    have := moveBy_inj h1
    cases it
    simp only [Range.iterEnd, RangeIter.mk.injEq] at *
    exact ⟨this, h2⟩

theorem length_iterLoop {r : Range n} (hne : ∀ i, r.lo i ≤ r.hi i) {l : List (Idx n)} (h : r.IterLoop r.iterBegin l) :
    (l.length : ℤ) = ∏ i, (r.hi i - r.lo i + 1) := by
  obtain ⟨l', e, hl⟩ := C01_iterator_enumerates_range r hne
  have := (hl l).mp h
  subst this
  have hf : l.toFinset = Finset.Icc r.lo r.hi := by
    ext p
    rw [List.mem_toFinset, e.mem_iff, Finset.mem_Icc]
    exact ⟨fun h => ⟨fun i => (h i).1, fun i => (h i).2⟩, fun h i => ⟨h.1 i, h.2 i⟩⟩
  have hc : l.length = (Finset.Icc r.lo r.hi).card := by rw [← hf, List.toFinset_card_of_nodup e.nodup]
  rw [hc, Pi.card_Icc]
  push_cast
  refine Finset.prod_congr rfl fun i _ => ?_
  rw [Int.card_Icc]
  have := hne i
  omega

theorem mapM_read (g : GridMap n T) : ∀ l : List (Idx n), (∀ p ∈ l, g.range.inside p = true) →
    l.mapM g.read = some (l.map g.cell)
  | [], _ => rfl
  | p :: l, h => by
    rw [List.mapM_cons, mapM_read g l fun q hq => h q (List.mem_cons_of_mem _ hq)]
    simp [GridMap.read, h p List.mem_cons_self]

theorem foldlM_write (R : Range n) (f : Idx n → T) : ∀ (l : List (Idx n)) (c : Idx n → T),
    (∀ p ∈ l, R.inside p = true) → ∃ c' : Idx n → T,
      (l.zip (l.map f)).foldlM (fun g (pv : Idx n × T) => g.write pv.1 pv.2) (⟨R, c⟩ : GridMap n T) = some ⟨R, c'⟩ ∧
      (∀ p ∈ l, c' p = f p) ∧ ∀ p, p ∉ l → c' p = c p
  | [], c, _ => ⟨c, rfl, by simp, fun _ _ => rfl⟩
  | p :: l, c, h => by
    obtain ⟨c', e, h1, h2⟩ := foldlM_write R f l (update c p (f p)) fun q hq => h q (List.mem_cons_of_mem _ hq)
    refine ⟨c', ?_, ?_, ?_⟩
    · rw [List.map_cons, List.zip_cons_cons, List.foldlM_cons]
      have : (⟨R, c⟩ : GridMap n T).write p (f p) = some ⟨R, update c p (f p)⟩ := by
        simp [GridMap.write, h p List.mem_cons_self]
      rw [this]
      exact e
    · intro q hq
      by_cases hql : q ∈ l
      · exact h1 q hql
      · rcases List.mem_cons.mp hq with rfl | hq
        · rw [h2 q hql, update_self]
        · exact absurd hq hql
    · intro q hq
      rw [List.mem_cons, not_or] at hq
      rw [h2 q hq.2, update_of_ne hq.1]

/-! ## size of the buffers -/

theorem product_foldlM (B : Boundary n) (hδ : 1 ≤ B.delta) (hE : ∀ i, 1 ≤ B.size.hi i - B.size.lo i + 1) :
    ∀ (l : List (Fin n)) (s : ℤ), 1 ≤ s →
      s * (l.map fun i => B.size.hi i - B.size.lo i + 1).prod < 2 ^ 31 →
      l.foldlM (fun s i => mulInt s (B.size.hi i - B.size.lo i + 1)) s =
        some (s * (l.map fun i => B.size.hi i - B.size.lo i + 1).prod)
  | [], s, _, _ => by simp
  | i :: l, s, hs, hlt => by
    rw [List.map_cons, List.prod_cons, ← mul_assoc] at hlt
    have hpos : 1 ≤ (l.map fun i => B.size.hi i - B.size.lo i + 1).prod := by
      clear hlt
      induction l with
      | nil => simp
      | cons a l ih => rw [List.map_cons, List.prod_cons]; nlinarith [hE a]
    have h1 : 1 ≤ s * (B.size.hi i - B.size.lo i + 1) := by nlinarith [hE i]
    have h2 : s * (B.size.hi i - B.size.lo i + 1) < 2 ^ 31 := by nlinarith
    rw [List.foldlM_cons]
    have : mulInt s (B.size.hi i - B.size.lo i + 1) = some (s * (B.size.hi i - B.size.lo i + 1)) := by
      rw [mulInt, if_pos ⟨by omega, h2⟩]
    rw [this]
    refine (product_foldlM B hδ hE l _ h1 hlt).trans ?_
    rw [List.map_cons, List.prod_cons, mul_assoc]

theorem prod_eq (f : Fin n → ℤ) : ((List.finRange n).map f).prod = ∏ i, f i := by
  rw [← List.ofFn_eq_map, List.prod_ofFn]

theorem exchSize_eq (B : Boundary n) (hδ : 1 ≤ B.delta) (hE : ∀ i, 1 ≤ B.size.hi i - B.size.lo i + 1)
    (hfit : B.delta * ∏ i, (B.size.hi i - B.size.lo i + 1) < 2 ^ 31) (d : Fin n) :
    exchSize B d = some (B.delta * ∏ i ∈ Finset.univ.erase d, (B.size.hi i - B.size.lo i + 1)) := by
  have h := product_foldlM B hδ hE (List.finRange n) B.delta hδ (by rw [prod_eq]; exact hfit)
  rw [prod_eq] at h
  rw [exchSize, exchangeSizeProduct, h]
  have hd := hE d
  simp only [Option.bind_some]
  rw [if_neg (by omega), ← Finset.mul_prod_erase _ _ (Finset.mem_univ d)]
  congr 1
  rw [show B.delta * ((B.size.hi d - B.size.lo d + 1) * ∏ i ∈ Finset.univ.erase d, (B.size.hi i - B.size.lo i + 1)) =
    (B.delta * ∏ i ∈ Finset.univ.erase d, (B.size.hi i - B.size.lo i + 1)) * (B.size.hi d - B.size.lo d + 1) by ring]
  exact Int.mul_tdiv_cancel _ (by omega)

theorem prod_slab (r : Range n) (d : Fin n) (B : Boundary n) (k : ℤ)
    (hd : r.hi d - r.lo d + 1 = k) (ho : ∀ i, i ≠ d → r.hi i = B.size.hi i ∧ r.lo i = B.size.lo i) :
    ∏ i, (r.hi i - r.lo i + 1) = k * ∏ i ∈ Finset.univ.erase d, (B.size.hi i - B.size.lo i + 1) := by
  rw [← Finset.mul_prod_erase _ _ (Finset.mem_univ d), hd]
  congr 1
  refine Finset.prod_congr rfl fun i hi => ?_
  obtain ⟨h1, h2⟩ := ho i (Finset.ne_of_mem_erase hi)
  rw [h1, h2]

/-- the four kinds of slabs -/
theorem slab_shape (B : Boundary n) (d : Fin n) (b : Bound) :
    ((B.ghostDomain d b).hi d - (B.ghostDomain d b).lo d + 1 = B.delta ∧
      ∀ i, i ≠ d → (B.ghostDomain d b).hi i = B.size.hi i ∧ (B.ghostDomain d b).lo i = B.size.lo i) ∧
    ((B.ghostSourceDomain d b).hi d - (B.ghostSourceDomain d b).lo d + 1 = B.delta ∧
      ∀ i, i ≠ d → (B.ghostSourceDomain d b).hi i = B.size.hi i ∧ (B.ghostSourceDomain d b).lo i = B.size.lo i) := by
  cases b <;>
  · simp only [Boundary.ghostDomain, Boundary.ghostSourceDomain, update_self]
    refine ⟨⟨by omega, fun i hi => ?_⟩, ⟨by omega, fun i hi => ?_⟩⟩ <;> simp [hi]

/-! ## one half of the exchange -/

theorem half_spec (S : Setup n) (d : Fin n) (src dst : Coord S → Range n) (dest source : Coord S → Coord S)
    (W : World S T) (k : Coord S → ℤ) (size : Coord S → ℤ)
    (hmove : ∀ c, src (source c) = moveRange d (k c) (dst c))
    (hne : ∀ c i, (dst c).lo i ≤ (dst c).hi i)
    (hnes : ∀ c i, (src c).lo i ≤ (src c).hi i)
    (hsrc : ∀ c p, InBox (src c).lo (src c).hi p → (W c).range.inside p = true)
    (hdst : ∀ c p, InBox (dst c).lo (dst c).hi p → (W c).range.inside p = true)
    (hsize : ∀ c, exchSize (bounds S c) d = some (size c))
    (hcount : ∀ c, ∏ i, ((src c).hi i - (src c).lo i + 1) = size c)
    (hds : ∀ c, dest (source c) = c) (hss : ∀ c, size (source c) = size c) :
    ∃ W' : World S T, (∀ W'', Half S d src dst dest source W W'' ↔ W'' = W') ∧
      (∀ c, (W' c).range = (W c).range) ∧
      (∀ c p, InBox (dst c).lo (dst c).hi p → (W' c).cell p = (W (source c)).cell (moveBy d (k c) p)) ∧
      (∀ c p, ¬ InBox (dst c).lo (dst c).hi p → (W' c).cell p = (W c).cell p) := by
  -- the lists of visited cells
  choose ls els uls using fun c => C01_iterator_enumerates_range (src c) (hnes c)
  choose ld eld uld using fun c => C01_iterator_enumerates_range (dst c) (hne c)
  have hld : ∀ c, ls (source c) = (ld c).map (moveBy d (k c)) := fun c => by
    have h1 := (uld c (ld c)).mpr rfl
    have h2 := iterLoop_move d (k c) h1
    have h3 : (src (source c)).IterLoop (src (source c)).iterBegin ((ld c).map (moveBy d (k c))) := by
      rw [hmove c]; exact h2
    exact ((uls _ _).mp h3).symm
  have hread : ∀ c, (ls c).mapM (W c).read = some ((ls c).map (W c).cell) := fun c =>
    mapM_read _ _ fun p hp => hsrc c p (((els c).mem_iff p).mp hp)
  choose c' e h1 h2 using fun c => foldlM_write (W c).range (fun p => (W (source c)).cell (moveBy d (k c) p)) (ld c)
    (W c).cell fun p hp => hdst c p (((eld c).mem_iff p).mp hp)
  have hbuf : ∀ c, (ls (source c)).map (W (source c)).cell = (ld c).map fun p => (W (source c)).cell (moveBy d (k c) p) :=
    fun c => by rw [hld, List.map_map]; rfl
  refine ⟨fun c => ⟨(W c).range, c' c⟩, fun W'' => ⟨?_, ?_⟩, fun c => rfl, ?_, ?_⟩
  · rintro ⟨bufs, sz, s1, s2, s3, s4⟩
    funext c
    have hb : ∀ c, bufs c = (ls c).map (W c).cell := fun c => by
      obtain ⟨l, a1, a2, -⟩ := s2 c
      have := (uls c l).mp a1
      subst this
      rw [hread] at a2
      exact (Option.some.inj a2).symm
    obtain ⟨l, a1, a2, a3⟩ := s4 c
    have := (uld c l).mp a1
    subst this
    rw [hb, hbuf, e] at a3
    exact (Option.some.inj a3).symm
  · rintro rfl
    refine ⟨fun c => (ls c).map (W c).cell, size, hsize, fun c => ⟨ls c, (uls c _).mpr rfl, hread c, ?_⟩,
      fun c => ⟨hds c, hss c⟩, fun c => ⟨ld c, (uld c _).mpr rfl, ?_, ?_⟩⟩
    · rw [List.length_map, length_iterLoop (hnes c) ((uls c _).mpr rfl), hcount]
    · show _ ≤ ((ls (source c)).map (W (source c)).cell).length
      rw [hbuf, List.length_map]
    · show ((ld c).zip ((ls (source c)).map (W (source c)).cell)).foldlM _ _ = _
      rw [hbuf]; exact e c
  · intro c p hp
    exact h1 c p (((eld c).mem_iff p).mpr hp)
  · intro c p hp
    exact h2 c p (fun h => hp (((eld c).mem_iff p).mp h))

/-! ## geometry of the local domains -/

/-- the first inner cell of the process with coordinate `k` in dimension `i`, or one past the last global cell -/
def start (S : Setup n) (i : Fin n) (k : ℕ) : ℤ :=
  if k = 0 then 0 else if k < S.dims i then S.cut i k + 1 else S.globalHi i + 1

theorem low_eq (S : Setup n) (c : Coord S) (i : Fin n) : localLow S c i = start S i (c i).1 - S.delta := by
  have := (c i).2
  unfold localLow start
  split_ifs <;> omega

theorem high_eq (S : Setup n) (c : Coord S) (i : Fin n) :
    localHigh S c i = start S i ((c i).1 + 1) - 1 + S.delta := by
  have := (c i).2
  unfold localHigh start
  rw [if_neg (Nat.succ_ne_zero _)]
  split_ifs <;> ring

theorem size_lo (S : Setup n) (c : Coord S) (i : Fin n) :
    (bounds S c).size.lo i = start S i (c i).1 - S.delta := low_eq S c i

theorem size_hi (S : Setup n) (c : Coord S) (i : Fin n) :
    (bounds S c).size.hi i = start S i ((c i).1 + 1) - 1 + S.delta := high_eq S c i

theorem inner_lo (S : Setup n) (c : Coord S) (i : Fin n) :
    (bounds S c).innerDomain.lo i = start S i (c i).1 := by
  simp only [Boundary.innerDomain, size_lo]
  show _ + S.delta = _
  ring

theorem inner_hi (S : Setup n) (c : Coord S) (i : Fin n) :
    (bounds S c).innerDomain.hi i = start S i ((c i).1 + 1) - 1 := by
  simp only [Boundary.innerDomain, size_hi]
  show _ - S.delta = _
  ring

theorem innerWidth_eq (S : Setup n) (c : Coord S) (i : Fin n) :
    innerWidth (bounds S c) i = start S i ((c i).1 + 1) - start S i (c i).1 := by
  rw [innerWidth, inner_lo, inner_hi]; ring

theorem start_dims (S : Setup n) (i : Fin n) (h : 0 < S.dims i) : start S i (S.dims i) = S.globalHi i + 1 := by
  unfold start
  rw [if_neg (by omega), if_neg (by omega)]

theorem start_zero (S : Setup n) (i : Fin n) : start S i 0 = 0 := rfl

theorem prev_other (S : Setup n) (c : Coord S) {d i : Fin n} (h : i ≠ d) : prev S c d i = c i := update_of_ne h _ _

theorem next_other (S : Setup n) (c : Coord S) {d i : Fin n} (h : i ≠ d) : next S c d i = c i := update_of_ne h _ _

theorem prev_val (S : Setup n) (c : Coord S) (d : Fin n) :
    (prev S c d d).1 = if (c d).1 = 0 then S.dims d - 1 else (c d).1 - 1 := by
  have := (c d).2
  simp only [prev, update_self]
  split_ifs with h
  · rw [h, Nat.mod_eq_of_lt (by omega)]; omega
  · rw [show (c d).1 + S.dims d - 1 = ((c d).1 - 1) + S.dims d by omega, Nat.add_mod_right, Nat.mod_eq_of_lt (by omega)]

theorem next_val (S : Setup n) (c : Coord S) (d : Fin n) :
    (next S c d d).1 = if (c d).1 + 1 = S.dims d then 0 else (c d).1 + 1 := by
  have := (c d).2
  simp only [next, update_self]
  split_ifs with h
  · rw [h, Nat.mod_self]
  · rw [Nat.mod_eq_of_lt (by omega)]

theorem next_prev (S : Setup n) (c : Coord S) (d : Fin n) : next S (prev S c d) d = c := by
  funext i
  by_cases h : i = d
  · subst h
    have := (c i).2
    apply Fin.ext
    rw [next_val, prev_val]
    by_cases h0 : (c i).1 = 0
    · rw [if_pos h0, if_pos (by omega), h0]
    · rw [if_neg h0, if_neg (by omega)]; omega
  · rw [next_other S _ h, prev_other S _ h]

theorem prev_next (S : Setup n) (c : Coord S) (d : Fin n) : prev S (next S c d) d = c := by
  funext i
  by_cases h : i = d
  · subst h
    have := (c i).2
    apply Fin.ext
    rw [prev_val, next_val]
    by_cases h0 : (c i).1 + 1 = S.dims i
    · rw [if_pos h0, if_pos rfl]; omega
    · rw [if_neg h0, if_neg (Nat.succ_ne_zero _)]; omega
  · rw [prev_other S _ h, next_other S _ h]

/-- how far the lower ghost cells are from the cells of the previous process -/
def loShift (S : Setup n) (d : Fin n) (c : Coord S) : ℤ := if (c d).1 = 0 then S.globalHi d + 1 else 0

/-- how far the upper ghost cells are from the cells of the next process -/
def hiShift (S : Setup n) (d : Fin n) (c : Coord S) : ℤ := if (c d).1 + 1 = S.dims d then -(S.globalHi d + 1) else 0

theorem start_prev (S : Setup n) (c : Coord S) (d : Fin n) :
    start S d ((prev S c d d).1 + 1) = start S d (c d).1 + loShift S d c := by
  have := (c d).2
  rw [prev_val, loShift]
  split_ifs with h
  · rw [h, Nat.sub_add_cancel (by omega), start_dims S d (by omega), start_zero]; ring
  · rw [Nat.sub_add_cancel (by omega)]; ring

theorem start_next (S : Setup n) (c : Coord S) (d : Fin n) :
    start S d (next S c d d).1 = start S d ((c d).1 + 1) + hiShift S d c := by
  have := (c d).2
  rw [next_val, hiShift]
  split_ifs with h
  · rw [h, start_dims S d (by omega), start_zero]; ring
  · ring

theorem bounds_delta (S : Setup n) (c : Coord S) : (bounds S c).delta = S.delta := rfl

theorem range_ext' {r s : Range n} (h1 : ∀ i, r.lo i = s.lo i) (h2 : ∀ i, r.hi i = s.hi i) : r = s := by
  cases r; cases s
  rw [Range.mk.injEq]
  exact ⟨funext h1, funext h2⟩

theorem lo_move (S : Setup n) (c : Coord S) (d : Fin n) :
    (bounds S (prev S c d)).ghostSourceDomain d .max = moveRange d (loShift S d c) ((bounds S c).ghostDomain d .min) := by
  have h := start_prev S c d
  refine range_ext' (fun i => ?_) (fun i => ?_) <;>
  · simp only [Boundary.ghostSourceDomain, Boundary.ghostDomain, moveRange, moveBy_apply]
    by_cases hi : i = d
    · subst hi
      simp only [update_self, size_hi, size_lo, bounds_delta, if_true]
      omega
    · simp only [update_of_ne hi, if_neg hi, size_hi, size_lo, prev_other S c hi]

theorem hi_move (S : Setup n) (c : Coord S) (d : Fin n) :
    (bounds S (next S c d)).ghostSourceDomain d .min = moveRange d (hiShift S d c) ((bounds S c).ghostDomain d .max) := by
  have h := start_next S c d
  refine range_ext' (fun i => ?_) (fun i => ?_) <;>
  · simp only [Boundary.ghostSourceDomain, Boundary.ghostDomain, moveRange, moveBy_apply]
    by_cases hi : i = d
    · subst hi
      simp only [update_self, size_hi, size_lo, bounds_delta, if_true]
      omega
    · simp only [update_of_ne hi, if_neg hi, size_hi, size_lo, next_other S c hi]

/-- What `exchange` needs: at least one ghost cell, at least `delta` inner cells in each process, and a local domain for which
the product in `init` fits in an `int`. -/
structure Good (S : Setup n) : Prop where
  delta : 1 ≤ S.delta
  wide : ∀ c i, S.delta ≤ innerWidth (bounds S c) i
  fit : ∀ c, S.delta * ∏ i, ((bounds S c).size.hi i - (bounds S c).size.lo i + 1) < 2 ^ 31

variable {S : Setup n}

/-- the number of cells in a slab -/
def slab (S : Setup n) (d : Fin n) (c : Coord S) : ℤ :=
  S.delta * ∏ i ∈ Finset.univ.erase d, ((bounds S c).size.hi i - (bounds S c).size.lo i + 1)

theorem Good.ext (_ : Good S) (c : Coord S) (i : Fin n) :
    (bounds S c).size.hi i - (bounds S c).size.lo i + 1 = innerWidth (bounds S c) i + 2 * S.delta := by
  rw [innerWidth_eq, size_hi, size_lo]; ring

theorem Good.exchSize (h : Good S) (c : Coord S) (d : Fin n) : exchSize (bounds S c) d = some (slab S d c) :=
  exchSize_eq _ h.delta (fun i => by have := h.ext c i; have := h.wide c i; have := h.delta; omega) (h.fit c) d

theorem slab_congr (S : Setup n) (d : Fin n) (c c' : Coord S) (h : ∀ i, i ≠ d → c i = c' i) : slab S d c = slab S d c' := by
  rw [slab, slab]
  congr 1
  refine Finset.prod_congr rfl fun i hi => ?_
  simp only [size_hi, size_lo, h i (Finset.ne_of_mem_erase hi)]

theorem slab_prev (c : Coord S) (d : Fin n) : slab S d (prev S c d) = slab S d c :=
  slab_congr S d _ _ fun _ hi => prev_other S c hi

theorem slab_next (c : Coord S) (d : Fin n) : slab S d (next S c d) = slab S d c :=
  slab_congr S d _ _ fun _ hi => next_other S c hi

theorem ghost_iff (B : Boundary n) (d : Fin n) (b : Bound) (hw : 0 ≤ innerWidth B d) (_ : 0 ≤ B.delta) (p : Idx n) :
    InBox (B.ghostDomain d b).lo (B.ghostDomain d b).hi p ↔ InBox B.size.lo B.size.hi p ∧
      match b with
      | .min => p d < B.size.lo d + B.delta
      | .max => B.size.hi d - B.delta < p d := by
  have hw' : innerWidth B d = B.size.hi d - B.size.lo d + 1 - 2 * B.delta := by
    simp only [innerWidth, Boundary.innerDomain]; ring
  cases b <;>
  · simp only [Boundary.ghostDomain]
    constructor
    · intro h
      have hd := h d
      simp only [update_self] at hd
      refine ⟨fun i => ?_, by omega⟩
      by_cases hi : i = d
      · subst hi; omega
      · have := h i
        simpa only [update_of_ne hi] using this
    · rintro ⟨h, h'⟩ i
      have := h i
      by_cases hi : i = d
      · subst hi; simp only [update_self]; omega
      · simpa only [update_of_ne hi] using this

theorem source_iff (B : Boundary n) (d : Fin n) (b : Bound) (hw : B.delta ≤ innerWidth B d) (_ : 0 ≤ B.delta) (p : Idx n) :
    InBox (B.ghostSourceDomain d b).lo (B.ghostSourceDomain d b).hi p ↔ InBox B.size.lo B.size.hi p ∧
      match b with
      | .min => B.size.lo d + B.delta ≤ p d ∧ p d < B.size.lo d + 2 * B.delta
      | .max => B.size.hi d - 2 * B.delta < p d ∧ p d ≤ B.size.hi d - B.delta := by
  have hw' : innerWidth B d = B.size.hi d - B.size.lo d + 1 - 2 * B.delta := by
    simp only [innerWidth, Boundary.innerDomain]; ring
  cases b <;>
  · simp only [Boundary.ghostSourceDomain]
    constructor
    · intro h
      have hd := h d
      simp only [update_self] at hd
      refine ⟨fun i => ?_, by omega⟩
      by_cases hi : i = d
      · subst hi; omega
      · have := h i
        simpa only [update_of_ne hi] using this
    · rintro ⟨h, h'⟩ i
      have := h i
      by_cases hi : i = d
      · subst hi; simp only [update_self]; omega
      · simpa only [update_of_ne hi] using this

theorem inBox_move {r : Range n} {d : Fin n} {k : ℤ} {p : Idx n} (h : InBox r.lo r.hi p) :
    InBox (moveRange d k r).lo (moveRange d k r).hi (moveBy d k p) := by
  intro i
  have := h i
  simp only [moveRange, moveBy_apply]
  split <;> omega

/-- `exchange(grid, dim)` in all processes -/
theorem exchangeDim_spec (hS : Good S) (d : Fin n) (W : World S T)
    (hcov : ∀ c, ∀ p, InBox (bounds S c).size.lo (bounds S c).size.hi p → (W c).range.inside p = true) :
    ∃ W' : World S T, (∀ W'', Mpi.ExchangeDim S d W W'' ↔ W'' = W') ∧ (∀ c, (W' c).range = (W c).range) ∧
      (∀ c p, InBox (bounds S c).size.lo (bounds S c).size.hi p → p d < start S d (c d).1 →
        InBox ((bounds S (prev S c d)).ghostSourceDomain d .max).lo ((bounds S (prev S c d)).ghostSourceDomain d .max).hi
          (moveBy d (loShift S d c) p) ∧
        (W' c).cell p = (W (prev S c d)).cell (moveBy d (loShift S d c) p)) ∧
      (∀ c p, InBox (bounds S c).size.lo (bounds S c).size.hi p → start S d ((c d).1 + 1) ≤ p d →
        InBox ((bounds S (next S c d)).ghostSourceDomain d .min).lo ((bounds S (next S c d)).ghostSourceDomain d .min).hi
          (moveBy d (hiShift S d c) p) ∧
        (W' c).cell p = (W (next S c d)).cell (moveBy d (hiShift S d c) p)) ∧
      (∀ c p, ¬ (InBox (bounds S c).size.lo (bounds S c).size.hi p ∧
        (p d < start S d (c d).1 ∨ start S d ((c d).1 + 1) ≤ p d)) → (W' c).cell p = (W c).cell p) := by
  have hδ := hS.delta
  have hw : ∀ c, (bounds S c).delta ≤ innerWidth (bounds S c) d := fun c => hS.wide c d
  have hw0 : ∀ c, 0 ≤ innerWidth (bounds S c) d := fun c => by have := hw c; rw [bounds_delta] at this; omega
  have hδ0 : ∀ c, 0 ≤ (bounds S c).delta := fun c => by rw [bounds_delta]; omega
  have hE : ∀ c i, (bounds S c).size.lo i ≤ (bounds S c).size.hi i := fun c i => by
    have := hS.ext c i; have := hS.wide c i; omega
  have hneg : ∀ c b i, ((bounds S c).ghostDomain d b).lo i ≤ ((bounds S c).ghostDomain d b).hi i := fun c b i => by
    have h := (slab_shape (bounds S c) d b).1
    by_cases hi : i = d
    · subst hi; have := h.1; rw [bounds_delta] at this; omega
    · rw [(h.2 i hi).1, (h.2 i hi).2]; exact hE c i
  have hnes : ∀ c b i, ((bounds S c).ghostSourceDomain d b).lo i ≤ ((bounds S c).ghostSourceDomain d b).hi i :=
    fun c b i => by
    have h := (slab_shape (bounds S c) d b).2
    by_cases hi : i = d
    · subst hi; have := h.1; rw [bounds_delta] at this; omega
    · rw [(h.2 i hi).1, (h.2 i hi).2]; exact hE c i
  have hcount : ∀ c b, ∏ i, (((bounds S c).ghostSourceDomain d b).hi i - ((bounds S c).ghostSourceDomain d b).lo i + 1) =
      slab S d c := fun c b =>
    prod_slab _ d (bounds S c) _ (slab_shape (bounds S c) d b).2.1 (slab_shape (bounds S c) d b).2.2
  obtain ⟨W₁, u1, r1, a1, b1⟩ := half_spec S d (fun c => (bounds S c).ghostSourceDomain d .max)
    (fun c => (bounds S c).ghostDomain d .min) (fun c => next S c d) (fun c => prev S c d) W (loShift S d) (slab S d)
    (fun c => lo_move S c d) (fun c => hneg c _) (fun c => hnes c _)
    (fun c p hp => hcov c p ((source_iff _ d _ (hw c) (hδ0 c) p).mp hp).1)
    (fun c p hp => hcov c p ((ghost_iff _ d _ (hw0 c) (hδ0 c) p).mp hp).1)
    (fun c => hS.exchSize c d) (fun c => hcount c _) (fun c => next_prev S c d) (fun c => slab_prev c d)
  obtain ⟨W', u2, r2, a2, b2⟩ := half_spec S d (fun c => (bounds S c).ghostSourceDomain d .min)
    (fun c => (bounds S c).ghostDomain d .max) (fun c => prev S c d) (fun c => next S c d) W₁ (hiShift S d) (slab S d)
    (fun c => hi_move S c d) (fun c => hneg c _) (fun c => hnes c _)
    (fun c p hp => by rw [r1]; exact hcov c p ((source_iff _ d _ (hw c) (hδ0 c) p).mp hp).1)
    (fun c p hp => by rw [r1]; exact hcov c p ((ghost_iff _ d _ (hw0 c) (hδ0 c) p).mp hp).1)
    (fun c => hS.exchSize c d) (fun c => hcount c _) (fun c => prev_next S c d) (fun c => slab_next c d)
  refine ⟨W', fun W'' => ⟨?_, ?_⟩, fun c => (r2 c).trans (r1 c), ?_, ?_, ?_⟩
  · rintro ⟨W₁', h1, h2⟩
    rw [u1] at h1
    subst h1
    exact (u2 _).mp h2
  · rintro rfl
    exact ⟨W₁, (u1 _).mpr rfl, (u2 _).mpr rfl⟩
  · intro c p hp hl
    have hg := (ghost_iff _ d .min (hw0 c) (hδ0 c) p).mpr ⟨hp, by
      show p d < (bounds S c).size.lo d + (bounds S c).delta
      rw [size_lo, bounds_delta]; omega⟩
    have hw1 := hS.wide c d
    rw [innerWidth_eq] at hw1
    refine ⟨by rw [lo_move]; exact inBox_move hg, ?_⟩
    rw [b2 c p, a1 c p hg]
    rw [ghost_iff _ d .max (hw0 c) (hδ0 c) p]
    rintro ⟨-, h⟩
    simp only [size_hi, bounds_delta] at h
    omega
  · intro c p hp hl
    have hg := (ghost_iff _ d .max (hw0 c) (hδ0 c) p).mpr ⟨hp, by
      show (bounds S c).size.hi d - (bounds S c).delta < p d
      rw [size_hi, bounds_delta]; omega⟩
    have hs : InBox ((bounds S (next S c d)).ghostSourceDomain d .min).lo
        ((bounds S (next S c d)).ghostSourceDomain d .min).hi (moveBy d (hiShift S d c) p) := by
      rw [hi_move]; exact inBox_move hg
    refine ⟨hs, ?_⟩
    rw [a2 c p hg, b1]
    rw [ghost_iff _ d .min (hw0 _) (hδ0 _)]
    rintro ⟨-, h⟩
    have := ((source_iff _ d .min (hw _) (hδ0 _) _).mp hs).2
    simp only at h this
    omega
  · intro c p hp
    rw [b2 c p, b1 c p]
    · rw [ghost_iff _ d .min (hw0 _) (hδ0 _)]
      rintro ⟨h1, h2⟩
      refine hp ⟨h1, Or.inl ?_⟩
      simp only [size_lo, bounds_delta] at h2
      omega
    · rw [ghost_iff _ d .max (hw0 _) (hδ0 _)]
      rintro ⟨h1, h2⟩
      refine hp ⟨h1, Or.inr ?_⟩
      simp only [size_hi, bounds_delta] at h2
      omega

/-! ## the cuts -/

/-- the cut is the exact quotient, or one less if the quotient is an integer but was not computed exactly -/
theorem cutOf_mem {rnd : ℚ → ℚ} (hr : Rounding rnd) {H : ℤ} {d c : ℕ} (hH : 1 ≤ H) (hH' : H < 2 ^ 31) (hd : 1 ≤ d)
    (hd' : d ≤ 2 ^ 19) (hc : 1 ≤ c) (hcd : c < d) :
    cutOf rnd H d c = (H - 1) * c / d ∨
      ((d : ℤ) ∣ (H - 1) * c ∧ ¬ (d : ℤ) ∣ H - 1 ∧ cutOf rnd H d c = (H - 1) * c / d - 1) := by
  have hdQ : (0 : ℚ) < d := by exact_mod_cast hd
  have hdZ : (0 : ℤ) < d := by exact_mod_cast hd
  have hcQ : (1 : ℚ) ≤ c := by exact_mod_cast hc
  have hcdQ : (c : ℚ) ≤ d := by exact_mod_cast hcd.le
  have hHQ : (1 : ℚ) ≤ H := by exact_mod_cast hH
  have hHQ' : (H : ℚ) ≤ 2 ^ 31 := by exact_mod_cast hH'.le
  have hdQ' : (d : ℚ) ≤ 2 ^ 19 := by exact_mod_cast hd'
  by_cases hdiv : (d : ℤ) ∣ H - 1
  · left
    obtain ⟨a, ha⟩ := hdiv
    have ha0 : 0 ≤ a := by nlinarith
    have ha1 : a < 2 ^ 31 := by nlinarith
    have e1 : ((H : ℚ) - 1) / d = (a : ℤ) := by
      rw [div_eq_iff hdQ.ne']
      have : ((H - 1 : ℤ) : ℚ) = ((d * a : ℤ) : ℚ) := by rw [ha]
      push_cast at this
      rw [this]; ring
    have hcZ : (c : ℤ) < 2 ^ 19 := by exact_mod_cast hcd.trans_le hd'
    have hac : a * c < 2 ^ 31 * 2 ^ 19 := by
      have : a * c ≤ a * 2 ^ 19 := mul_le_mul_of_nonneg_left hcZ.le ha0
      omega
    have hac0 : 0 ≤ a * c := mul_nonneg ha0 (Int.natCast_nonneg c)
    rw [cutOf, e1, hr.int a (by rw [abs_of_nonneg ha0]; omega)]
    have e2 : ((a : ℤ) : ℚ) * c = ((a * c : ℤ) : ℚ) := by push_cast; ring
    rw [e2, hr.int (a * c) (by rw [abs_of_nonneg hac0]; omega), toInt,
      if_pos (by exact_mod_cast hac0), Int.floor_intCast, ha, show (d : ℤ) * a * c = d * (a * c) by ring,
      Int.mul_ediv_cancel_left _ hdZ.ne']
  · have hH2 : (2 : ℚ) ≤ H := by
      have : H ≠ 1 := by rintro rfl; simp at hdiv
      exact_mod_cast (show 2 ≤ H by omega)
    set w : ℚ := ((H : ℚ) - 1) / d with hw
    have hwd : w * d = H - 1 := div_mul_cancel₀ _ hdQ.ne'
    have hwlo : 1 / 2 ^ 19 ≤ w := by
      rw [hw, div_le_div_iff₀ (by norm_num) hdQ]; nlinarith
    have hw0 : 0 < w := lt_of_lt_of_le (by norm_num) hwlo
    have hwhi : w ≤ 2 ^ 31 := by
      have h1 : (1 : ℚ) ≤ d := by exact_mod_cast hd
      nlinarith
    have r1 := abs_le.mp (hr.rel w (by norm_num at hwlo ⊢; linarith) (by norm_num at hwhi ⊢; linarith))
    set v := rnd w
    have hwc : w * c ≤ 2 ^ 31 := by nlinarith
    have hwc1 : w ≤ w * c := by nlinarith
    have b1 : w * c - w * c / 2 ^ 52 ≤ v * c := by
      have := mul_le_mul_of_nonneg_right r1.1 (show (0 : ℚ) ≤ c by linarith); linarith
    have b2 : v * c ≤ w * c + w * c / 2 ^ 52 := by
      have := mul_le_mul_of_nonneg_right r1.2 (show (0 : ℚ) ≤ c by linarith); linarith
    have r2 := abs_le.mp (hr.rel (v * c) (by norm_num at *; linarith) (by norm_num at *; linarith))
    set x := rnd (v * c) with hx
    have hinv : 1 / 2 ^ 19 ≤ 1 / (d : ℚ) := one_div_le_one_div_of_le hdQ hdQ'
    have x1 : w * c - 1 / d < x := by norm_num at *; linarith
    have x2 : x < w * c + 1 / d := by norm_num at *; linarith
    have hx0 : 0 ≤ x := by norm_num at *; linarith
    -- quotient and remainder
    set q := (H - 1) * c / d
    set r := (H - 1) * c % d
    have hqr : (d : ℤ) * q + r = (H - 1) * c := Int.mul_ediv_add_emod _ _
    have hr0 : 0 ≤ r := Int.emod_nonneg _ hdZ.ne'
    have hrd : r < d := Int.emod_lt_of_pos _ hdZ
    have hwq : w * c = q + r / d := by
      have h : ((d * q + r : ℤ) : ℚ) = (((H - 1) * c : ℤ) : ℚ) := by rw [hqr]
      push_cast at h
      rw [hw]
      field_simp
      linarith
    rw [hwq] at x1 x2
    have hcut : cutOf rnd H d c = ⌊x⌋ := by
      show toInt (rnd (rnd w * c)) = _
      rw [toInt, if_pos hx0]
    by_cases hr' : r = 0
    · rw [hr'] at x1 x2
      have hone : 1 / (d : ℚ) ≤ 1 := by
        rw [div_le_one hdQ]; exact_mod_cast hd
      by_cases hle : (q : ℚ) ≤ x
      · left
        rw [hcut, Int.floor_eq_iff]
        refine ⟨hle, ?_⟩
        simp only [Int.cast_zero, zero_div, add_zero] at x2
        linarith
      · right
        refine ⟨Int.dvd_of_emod_eq_zero hr', hdiv, ?_⟩
        rw [hcut, Int.floor_eq_iff]
        push_cast
        simp only [Int.cast_zero, zero_div, add_zero] at x1
        exact ⟨by linarith, by linarith [not_le.mp hle]⟩
    · left
      rw [hcut, Int.floor_eq_iff]
      have h1 : 1 / (d : ℚ) ≤ r / d := by
        apply div_le_div_of_nonneg_right _ hdQ.le
        exact_mod_cast (show 1 ≤ r by omega)
      have h2 : (r : ℚ) / d + 1 / d ≤ 1 := by
        rw [← add_div, div_le_one hdQ]
        exact_mod_cast (show r + 1 ≤ d by omega)
      exact ⟨by linarith, by linarith⟩

/-- widths of the inner domains in one dimension -/
theorem width_bounds (S : Setup n) (i : Fin n) {rnd : ℚ → ℚ} (hr : Rounding rnd)
    (hcut : ∀ k, S.cut i k = cutOf rnd (S.globalHi i) (S.dims i) k) (hH : 1 ≤ S.globalHi i) (hH' : S.globalHi i < 2 ^ 31)
    (hd' : S.dims i ≤ 2 ^ 19) (k : ℕ) (hk : k < S.dims i) :
    (S.globalHi i - 1) / S.dims i ≤ start S i (k + 1) - start S i k ∧
      start S i (k + 1) - start S i k ≤ (S.globalHi i - 1) / S.dims i + 2 := by
  have hd : 1 ≤ S.dims i := by omega
  have hmem := fun c (h1 : 1 ≤ c) (h2 : c < S.dims i) => cutOf_mem hr hH hH' hd hd' h1 h2
  simp only [← hcut] at hmem
  set H := S.globalHi i
  generalize hD : S.dims i = d at *
  set M := H - 1 with hM
  set a := M / (d : ℤ) with ha
  set b := M % (d : ℤ) with hb
  have hdZ : (0 : ℤ) < d := by exact_mod_cast hd
  have hab : (d : ℤ) * a + b = M := Int.mul_ediv_add_emod _ _
  have hb0 : 0 ≤ b := Int.emod_nonneg _ hdZ.ne'
  have hbd : b < d := Int.emod_lt_of_pos _ hdZ
  have hndvd : ¬ (d : ℤ) ∣ M → 0 < b := fun h => by
    by_contra hb'
    exact h (Int.dvd_of_emod_eq_zero (by omega))
  -- quotients
  have hq : ∀ c : ℕ, ∃ q r : ℤ, M * c / d = q ∧ 0 ≤ r ∧ r < d ∧ d * q + r = M * c ∧ ((d : ℤ) ∣ M * c ↔ r = 0) := fun c =>
    ⟨M * c / d, M * c % d, rfl, Int.emod_nonneg _ hdZ.ne', Int.emod_lt_of_pos _ hdZ, Int.mul_ediv_add_emod _ _,
      Int.dvd_iff_emod_eq_zero⟩
  have small : ∀ t u : ℤ, (d : ℤ) * t = u → -d < u → u < 2 * d → 0 ≤ t ∧ t ≤ 1 := fun t u h1 h2 h3 =>
    ⟨by nlinarith, by nlinarith⟩
  have s0 : start S i 0 = 0 := rfl
  have s1 : ∀ c, 1 ≤ c → c < d → start S i c = S.cut i c + 1 := fun c h1 h2 => by
    rw [start, if_neg (by omega), if_pos (by omega)]
  have s2 : start S i d = H + 1 := by rw [start, if_neg (by omega), if_neg (by omega)]
  -- the first cut
  have first : 1 < d → S.cut i 1 = a := fun h => by
    rcases hmem 1 le_rfl h with h1 | ⟨h1, h2, -⟩
    · rw [h1, Nat.cast_one, mul_one]
    · rw [Nat.cast_one, mul_one] at h1; exact absurd h1 h2
  rcases Nat.eq_zero_or_pos k with rfl | hk0
  · rw [s0]
    rcases Nat.lt_or_ge 1 d with h1 | h1
    · rw [s1 1 le_rfl h1, first h1]; omega
    · have : d = 1 := by omega
      subst this
      rw [zero_add, s2]
      push_cast at hab hbd
      omega
  · obtain ⟨q, r, q1, q2, q3, q4, q5⟩ := hq k
    rcases Nat.lt_or_ge (k + 1) d with h1 | h1
    · obtain ⟨q', r', p1, p2, p3, p4, p5⟩ := hq (k + 1)
      have e : (d : ℤ) * (q' - q - a) = r + b - r' := by push_cast at p4; linear_combination p4 - q4 - hab
      have hs := small _ _ e (by omega) (by omega)
      rw [s1 k hk0 hk, s1 (k + 1) (by omega) h1]
      have m1 := hmem k hk0 hk
      have m2 := hmem (k + 1) (by omega) h1
      rw [q1, q5] at m1
      rw [p1, p5] at m2
      rcases m2 with m2 | ⟨x1, x2, m2⟩
      · rcases m1 with m1 | ⟨-, -, m1⟩
        · omega
        · omega
      · have hb1 := hndvd x2
        have : q' - q - a ≠ 0 := fun h => by rw [h, mul_zero] at e; omega
        rcases m1 with m1 | ⟨-, -, m1⟩
        · omega
        · omega
    · have : d = k + 1 := by omega
      rw [← this, s2, s1 k hk0 hk]
      have m1 := hmem k hk0 hk
      rw [q1, q5] at m1
      have hkZ : (k : ℤ) = d - 1 := by rw [this]; push_cast; ring
      have e : (d : ℤ) * (M - a - q) = b + r := by rw [hkZ] at q4; linear_combination -q4 - hab
      have hs := small _ _ e (by omega) (by omega)
      rcases m1 with m1 | ⟨x1, x2, m1⟩
      · omega
      · have hb1 := hndvd x2
        have hd0 : (d : ℤ) ∣ b := ⟨M - a - q, by rw [e, x1]; ring⟩
        have := Int.le_of_dvd hb1 hd0
        omega

end Schnek.Lemma.Mpi
