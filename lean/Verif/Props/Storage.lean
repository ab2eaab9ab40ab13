import Verif.Lemma.Storage
import Verif.Props.Range
import Mathlib.Data.Set.Function

/-!
# C04 - C07: storage order, strides and element access of grids
-/

namespace Schnek.Props

open Schnek Schnek.Spec Schnek.Lemma Function

variable {n : ℕ}

private theorem ext_vol (r : Range n) (hs : ∏ i, extent r.lo r.hi i < 2 ^ 64) :
    vol r.lo r.hi n le_rfl < 2 ^ 64 := by rw [vol_full]; exact hs

private theorem bij (o : Order) (r : Range (n + 1)) (hne : ∀ i, r.lo i ≤ r.hi i)
    (hs : ∏ i, extent r.lo r.hi i < 2 ^ 64) :
    Set.BijOn (Storage.slot o r) {p | InBox r.lo r.hi p} {k | (k : ℤ) < ∏ i, extent r.lo r.hi i} := by
  have hv := ext_vol r hs
  refine ⟨fun p hp => ?_, fun p hp q hq h => ?_, fun k hk => ?_⟩
  · show (Storage.slot o r p : ℤ) < _
    rw [slot_toNat o r hv hp, ← vol_full]
    exact (addr_bounds o r hp).2
  · apply addr_injective o r hp hq
    rw [← slot_toNat o r hv hp, ← slot_toNat o r hv hq, h]
  · have hk' : (k : ℤ) < vol r.lo r.hi (n + 1) le_rfl := by rw [vol_full]; exact hk
    obtain ⟨p, hp, ha⟩ := addr_surjective o r hne k (by omega) hk'
    refine ⟨p, hp, ?_⟩
    have := slot_toNat o r hv hp
    omega

private theorem vol_nonneg (r : Range n) (hne : ∀ i, r.lo i ≤ r.hi i) :
    0 ≤ vol r.lo r.hi n le_rfl :=
  (vol_pos n le_rfl (inBoxK_of_inBox (p := r.lo) (fun i => ⟨le_rfl, hne i⟩) n)).le

/-- **C04** C order: the element numbers (computed with 64 bit wrap-around) of the indices of a
non-empty range are a bijection onto `0 .. size-1`, and `size` elements are allocated.
`∏ extent < 2^64` says that the number of elements can be represented in a `size_t`. -/
theorem C04_c_order_bijection (r : Range (n + 1)) (hne : ∀ i, r.lo i ≤ r.hi i)
    (hs : ∏ i, extent r.lo r.hi i < 2 ^ 64) :
    Set.BijOn (Storage.slot .c r) {p | InBox r.lo r.hi p} {k | (k : ℤ) < ∏ i, extent r.lo r.hi i} ∧
    ((Storage.size r).val : ℤ) = ∏ i, extent r.lo r.hi i :=
  ⟨bij .c r hne hs, by rw [size_toNat r (ext_vol r hs) (vol_nonneg r hne), vol_full]⟩

/-- **C05** the same for Fortran order. -/
theorem C05_fortran_order_bijection (r : Range (n + 1)) (hne : ∀ i, r.lo i ≤ r.hi i)
    (hs : ∏ i, extent r.lo r.hi i < 2 ^ 64) :
    Set.BijOn (Storage.slot .fortran r) {p | InBox r.lo r.hi p}
      {k | (k : ℤ) < ∏ i, extent r.lo r.hi i} ∧
    ((Storage.size r).val : ℤ) = ∏ i, extent r.lo r.hi i :=
  ⟨bij .fortran r hne hs, by rw [size_toNat r (ext_vol r hs) (vol_nonneg r hne), vol_full]⟩

/-- non-vacuity, with negative lower bounds (so that `size_t` wraps around) -/
example : ∃ r : Range 3, (∀ i, r.lo i ≤ r.hi i) ∧ (∏ i, extent r.lo r.hi i < 2 ^ 64) ∧
    r.lo 0 < 0 ∧ Storage.slot .c r ![-1, 4, 0] = 9 ∧ Storage.slot .fortran r ![-1, 4, 0] = 5 := by
  refine ⟨⟨![-2, 3, 0], ![1, 4, 2]⟩, by decide, by decide, by decide, by decide, by decide⟩

/-- **C06** `stride(d)` is the distance of neighbouring elements along dimension `d`. -/
theorem C06_stride (o : Order) (r : Range (n + 1)) (d : Fin (n + 1)) (p : Idx (n + 1))
    (hp : InBox r.lo r.hi p) (hq : InBox r.lo r.hi (update p d (p d + 1)))
    (hs : ∏ i, extent r.lo r.hi i < 2 ^ 64) :
    Storage.slot o r (update p d (p d + 1)) = Storage.slot o r p + (Storage.stride o r d).val := by
  have hv := ext_vol r hs
  have h1 := slot_toNat o r hv hp
  have h2 := slot_toNat o r hv hq
  have hlt : addr o r p < addr o r (update p d (p d + 1)) := by
    rw [← orderLt_iff_addr o r hp hq]
    cases o with
    | c => exact ⟨d, fun j hj => (update_of_ne (ne_of_lt hj) _ _).symm, by simp⟩
    | fortran => exact ⟨d, fun j hj => (update_of_ne (ne_of_gt hj) _ _).symm, by simp⟩
  have hb := addr_bounds o r hp
  have hb' := addr_bounds o r hq
  have h3 : Storage.stride o r d = ((addr o r (update p d (p d + 1)) - addr o r p : ℤ) : Word) := by
    push_cast
    rw [addr_step]
    ring
  have h4 : ((Storage.stride o r d).val : ℤ) = addr o r (update p d (p d + 1)) - addr o r p := by
    rw [h3, word_val (by omega) (by omega)]
    omega
  omega

/-- **C06** raw iteration (element numbers `0,1,2,...,size-1`) meets the indices in the order of the
matching `forEach` policy: collecting the element numbers in `forEach` gives `0,1,...,size-1`. -/
theorem C06_raw_order_is_forEach_order (r : Range (n + 1)) (hne : ∀ i, r.lo i ≤ r.hi i)
    (hs : ∏ i, extent r.lo r.hi i < 2 ^ 64) :
    r.forEachC (fun p l => l ++ [Storage.slot .c r p]) [] = List.range (Storage.size r).val ∧
    r.forEachF (fun p l => l ++ [Storage.slot .fortran r p]) [] = List.range (Storage.size r).val := by
  have hv := ext_vol r hs
  have key : ∀ (o : Order) (l : List (Idx (n + 1))), Enumerates (orderLt o) (InBox r.lo r.hi) l →
      l.foldl (fun s p => s ++ [Storage.slot o r p]) [] = List.range (Storage.size r).val := by
    intro o l hl
    have hfold : ∀ (l : List (Idx (n + 1))) (s : List ℕ),
        l.foldl (fun s p => s ++ [Storage.slot o r p]) s = s ++ l.map (Storage.slot o r) := by
      intro l
      induction l with
      | nil => intro s; simp
      | cons a l ih => intro s; simp [ih]
    rw [hfold, List.nil_append]
    have hbij := bij o r hne hs
    have hsz : ((Storage.size r).val : ℤ) = ∏ i, extent r.lo r.hi i := by
      rw [size_toNat r hv (vol_nonneg r hne), vol_full]
    have hsorted : (l.map (Storage.slot o r)).Pairwise (· < ·) := by
      rw [List.pairwise_map]
      have := hl.sorted
      refine List.Pairwise.imp_of_mem ?_ this
      intro a b ha hb hab
      have ha' := (hl.mem_iff a).mp ha
      have hb' := (hl.mem_iff b).mp hb
      have := (orderLt_iff_addr o r ha' hb').mp hab
      have h1 := slot_toNat o r hv ha'
      have h2 := slot_toNat o r hv hb'
      omega
    have hmem : ∀ k, k ∈ l.map (Storage.slot o r) ↔ k ∈ List.range (Storage.size r).val := by
      intro k
      rw [List.mem_map, List.mem_range]
      constructor
      · rintro ⟨p, hp, rfl⟩
        have := hbij.mapsTo ((hl.mem_iff p).mp hp)
        have h' : (Storage.slot o r p : ℤ) < ∏ i, extent r.lo r.hi i := this
        omega
      · intro hk
        have hk' : (k : ℤ) < ∏ i, extent r.lo r.hi i := by omega
        obtain ⟨p, hp, rfl⟩ := hbij.surjOn hk'
        exact ⟨p, (hl.mem_iff p).mpr hp, rfl⟩
    have hperm : (l.map (Storage.slot o r)).Perm (List.range (Storage.size r).val) := by
      rw [List.perm_ext_iff_of_nodup]
      · exact hmem
      · exact hsorted.imp fun h => ne_of_lt h
      · exact List.nodup_range
    exact hperm.eq_of_pairwise (fun a b _ _ h1 h2 => absurd h1 (lt_asymm h2)) hsorted List.pairwise_lt_range
  constructor
  · obtain ⟨l, hl, h⟩ := C02_forEachC r
    rw [h]; exact key .c l hl
  · obtain ⟨l, hl, h⟩ := C02_forEachF r
    rw [h]; exact key .fortran l hl

/-! ## C07 -/

section C07

variable {T T2 : Type}

/-- The grid's range is non-empty, its element count fits into `size_t` and its buffer has been
allocated for this range; holds after construction (`C07_create`) and is preserved. -/
structure Usable (g : Grid T n) : Prop where
  /-- non-empty range -/
  nonempty : ∀ i, g.range.lo i ≤ g.range.hi i
  /-- element count representable -/
  fits : ∏ i, extent g.range.lo g.range.hi i < 2 ^ 64
  /-- allocated for this range -/
  wf : g.WF

private theorem slot_lt (g : Grid T n) (hg : Usable g) {p : Idx (n + 1)}
    (hp : InBox g.range.lo g.range.hi p) : Storage.slot g.order g.range p < g.buf.length := by
  have h := (bij g.order g.range hg.nonempty hg.fits).mapsTo hp
  have h' : (Storage.slot g.order g.range p : ℤ) < ∏ i, extent g.range.lo g.range.hi i := h
  have hw := hg.wf
  have hsz : ((Storage.size g.range).val : ℤ) = ∏ i, extent g.range.lo g.range.hi i := by
    rw [size_toNat g.range (ext_vol g.range hg.fits) (vol_nonneg g.range hg.nonempty), vol_full]
  unfold Grid.WF at hw
  omega

/-- **C07** a constructed (or resized) grid is usable -/
theorem C07_create (o : Order) (r : Range (n + 1)) (init : ℕ → T) (hne : ∀ i, r.lo i ≤ r.hi i)
    (hs : ∏ i, extent r.lo r.hi i < 2 ^ 64) : Usable (Grid.create o r init) :=
  ⟨hne, hs, by simp [Grid.WF, Grid.create]⟩

/-- **C07** reading inside of the range is inside of the buffer -/
theorem C07_read_defined (g : Grid T n) (hg : Usable g) (p : Idx (n + 1))
    (hp : InBox g.range.lo g.range.hi p) : ∃ v, g.get? p = some v :=
  ⟨_, List.getElem?_eq_getElem (slot_lt g hg hp)⟩

/-- **C07** writing at an index of the range: succeeds, the index reads the new value, all other
indices of the range read what they read before, and the shape is unchanged -/
theorem C07_write_read (g : Grid T n) (hg : Usable g) (p : Idx (n + 1))
    (hp : InBox g.range.lo g.range.hi p) (v : T) :
    ∃ g', g.set? p v = some g' ∧ g'.range = g.range ∧ Usable g' ∧ g'.get? p = some v ∧
      ∀ q, InBox g.range.lo g.range.hi q → q ≠ p → g'.get? q = g.get? q := by
  have hlt := slot_lt g hg hp
  refine ⟨{ g with buf := g.buf.set (Storage.slot g.order g.range p) v }, by simp [Grid.set?, hlt], rfl,
    ⟨hg.nonempty, hg.fits, ?_⟩, ?_, ?_⟩
  · have := hg.wf
    simpa [Grid.WF] using this
  · simp [Grid.get?, hlt]
  · intro q hq hqp
    simp only [Grid.get?]
    rw [List.getElem?_set_ne]
    intro h
    exact hqp ((bij g.order g.range hg.nonempty hg.fits).injOn hq hp h.symm)

/-- **C07** any sequence of writes at indices of the range: the grid behaves like the map
`m : index → value` under the same sequence of map updates -/
theorem C07_write_history (g : Grid T n) (hg : Usable g) (m : Idx (n + 1) → T)
    (hm : ∀ p, InBox g.range.lo g.range.hi p → g.get? p = some (m p))
    (ws : List (Idx (n + 1) × T)) (hws : ∀ w ∈ ws, InBox g.range.lo g.range.hi w.1) :
    ∃ g', ws.foldlM (fun g w => g.set? w.1 w.2) g = some g' ∧ g'.range = g.range ∧ Usable g' ∧
      ∀ p, InBox g.range.lo g.range.hi p →
        g'.get? p = some (ws.foldl (fun m w => update m w.1 w.2) m p) := by
  induction ws generalizing g m with
  | nil => exact ⟨g, rfl, rfl, hg, by simpa using hm⟩
  | cons w ws ih =>
    obtain ⟨g1, h1, h2, h3, h4, h5⟩ := C07_write_read g hg w.1 (hws w (by simp)) w.2
    obtain ⟨g', i1, i2, i3, i4⟩ := ih g1 h3 (update m w.1 w.2)
      (by
        rw [h2]
        intro p hp
        by_cases hpw : p = w.1
        · subst hpw; rw [h4]; simp
        · rw [h5 p hp hpw, hm p hp, update_of_ne hpw])
      (by rw [h2]; intro w' hw'; exact hws w' (by simp [hw']))
    refine ⟨g', ?_, i2.trans h2, i3, ?_⟩
    · simp [List.foldlM_cons, h1, i1]
    · rw [h2] at i4
      simpa using i4

private theorem foldl_set_range (v : T) : ∀ (m : ℕ) (b : List T),
    ((List.range m).foldl (fun b k => b.set k v) b).length = b.length ∧
    ∀ j, ((List.range m).foldl (fun b k => b.set k v) b)[j]? =
      if j < m ∧ j < b.length then some v else b[j]?
  | 0, b => by simp
  | m + 1, b => by
    have ih := foldl_set_range v m b
    rw [List.range_succ, List.foldl_append]
    simp only [List.foldl_cons, List.foldl_nil, List.length_set]
    refine ⟨ih.1, fun j => ?_⟩
    rw [List.getElem?_set, ih.2 j]
    rcases lt_trichotomy j m with h | h | h
    · rw [if_neg (by omega)]
      by_cases h2 : j < b.length
      · simp [h, h2, Nat.lt_succ_of_lt h]
      · simp [h2]
    · subst h
      rw [if_pos rfl, ih.1]
      by_cases h2 : j < b.length
      · simp [h2]
      · simp [h2]
    · rw [if_neg (by omega)]
      simp [show ¬ j < m by omega, show ¬ j < m + 1 by omega]

/-- **C07** assigning a scalar makes every index read that scalar -/
theorem C07_fill (g : Grid T n) (hg : Usable g) (v : T) :
    (g.fill v).range = g.range ∧ Usable (g.fill v) ∧
      ∀ p, InBox g.range.lo g.range.hi p → (g.fill v).get? p = some v := by
  have h := foldl_set_range v g.buf.length g.buf
  refine ⟨rfl, ⟨hg.nonempty, hg.fits, ?_⟩, fun p hp => ?_⟩
  · have := hg.wf
    simp only [Grid.WF, Grid.fill] at this ⊢
    rw [h.1]; exact this
  · have hlt := slot_lt g hg hp
    simp only [Grid.get?, Grid.fill]
    rw [h.2, if_pos ⟨hlt, hlt⟩]

/-- **C07** `+=` / `-=` (any `op`) with a grid of the same storage policy and the same range is
elementwise; in particular `a += a` -/
theorem C07_opAssign_same_storage (op : T → T2 → T) (g : Grid T n) (g2 : Grid T2 n) (hg : Usable g)
    (hg2 : Usable g2) (ho : g2.order = g.order) (hr : g2.range = g.range) :
    ∃ g', Grid.opAssignRaw op g g2 = some g' ∧ g'.range = g.range ∧ Usable g' ∧
      ∀ p x y, InBox g.range.lo g.range.hi p → g.get? p = some x → g2.get? p = some y →
        g'.get? p = some (op x y) := by
  have hlen : g2.buf.length = g.buf.length := by
    have h1 := hg.wf
    have h2 := hg2.wf
    unfold Grid.WF at h1 h2
    rw [h1, h2, hr]
  refine ⟨{ g with buf := (List.zipWith op g.buf g2.buf) ++ g.buf.drop g2.buf.length },
    by rw [Grid.opAssignRaw, if_pos hlen.le], rfl, ⟨hg.nonempty, hg.fits, ?_⟩, ?_⟩
  · have := hg.wf
    simp only [Grid.WF] at this ⊢
    simp [hlen, this]
  · intro p x y hp hx hy
    have hlt := slot_lt g hg hp
    simp only [Grid.get?] at hx hy ⊢
    rw [ho, hr] at hy
    rw [List.getElem?_append_left (by simp [hlen, hlt]), List.getElem?_zipWith, hx, hy]

private theorem opAssignLoop_spec (op : T → T2 → T) (g2 : Grid T2 n) (hg2 : Usable g2)
    (l : List (Idx (n + 1))) : ∀ (g : Grid T n), Usable g → g2.range = g.range →
      l.Nodup → (∀ p ∈ l, InBox g.range.lo g.range.hi p) →
      ∃ g', Grid.opAssignLoop op g2 g l = some g' ∧ g'.range = g.range ∧ Usable g' ∧
        (∀ p x y, InBox g.range.lo g.range.hi p → p ∈ l → g.get? p = some x → g2.get? p = some y →
          g'.get? p = some (op x y)) ∧
        (∀ p, InBox g.range.lo g.range.hi p → p ∉ l → g'.get? p = g.get? p) := by
  induction l with
  | nil =>
    intro g hg hr _ _
    exact ⟨g, rfl, rfl, hg, fun p x y _ h => by simp at h, fun _ _ _ => rfl⟩
  | cons a l ih =>
    intro g hg hr hnd hin
    rw [List.nodup_cons] at hnd
    have ha := hin a (by simp)
    obtain ⟨xa, hxa⟩ := C07_read_defined g hg a ha
    obtain ⟨ya, hya⟩ := C07_read_defined g2 hg2 a (by rw [hr]; exact ha)
    obtain ⟨g1, h1, h2, h3, h4, h5⟩ := C07_write_read g hg a ha (op xa ya)
    obtain ⟨g', i1, i2, i3, i4, i5⟩ := ih g1 h3 (by rw [h2, hr]) hnd.2
      (by rw [h2]; exact fun p hp => hin p (by simp [hp]))
    refine ⟨g', ?_, i2.trans h2, i3, ?_, ?_⟩
    · simp [Grid.opAssignLoop, Grid.opAssignAt, hxa, hya, h1, i1]
    · intro p x y hp hpl hx hy
      rw [h2] at i4 i5
      by_cases hpa : p = a
      · subst hpa
        rw [i5 p hp hnd.1, h4]
        rw [hx] at hxa; rw [hy] at hya
        cases hxa; cases hya; rfl
      · have hpl' : p ∈ l := by simpa [hpa] using hpl
        exact i4 p x y hp hpl' (by rw [h5 p hp hpa, hx]) hy
    · intro p hp hpl
      rw [h2] at i5
      simp only [List.mem_cons, not_or] at hpl
      rw [i5 p hp hpl.2, h5 p hp hpl.1]

/-- **C07** `+=` / `-=` (any `op`) with a grid of another storage policy and the same range is
elementwise; `l` are the positions produced by the iterator of the grid's range -/
theorem C07_opAssign_other_storage (op : T → T2 → T) (g : Grid T n) (g2 : Grid T2 n)
    (hg : Usable g) (hg2 : Usable g2) (hr : g2.range = g.range) (l : List (Idx (n + 1)))
    (hl : g.range.IterLoop g.range.iterBegin l) :
    ∃ g', Grid.opAssignLoop op g2 g l = some g' ∧ g'.range = g.range ∧ Usable g' ∧
      ∀ p x y, InBox g.range.lo g.range.hi p → g.get? p = some x → g2.get? p = some y →
        g'.get? p = some (op x y) := by
  obtain ⟨l', hl', h⟩ := C01_iterator_enumerates_range g.range hg.nonempty
  have := (h l).mp hl
  subst this
  obtain ⟨g', i1, i2, i3, i4, i5⟩ := opAssignLoop_spec op g2 hg2 l g hg hr hl'.nodup
    (fun p hp => (hl'.mem_iff p).mp hp)
  exact ⟨g', i1, i2, i3, fun p x y hp => i4 p x y hp ((hl'.mem_iff p).mpr hp)⟩

/-- non-vacuity: two usable 2d grids with different storage order and negative lower bounds -/
example : Usable (Grid.create .c (⟨![-1, 0], ![1, 2]⟩ : Range 2) (fun k => (k : ℤ))) ∧
    Usable (Grid.create .fortran (⟨![-1, 0], ![1, 2]⟩ : Range 2) (fun k => (k : ℤ))) :=
  ⟨C07_create _ _ _ (by decide) (by decide), C07_create _ _ _ (by decide) (by decide)⟩

end C07

end Schnek.Props
