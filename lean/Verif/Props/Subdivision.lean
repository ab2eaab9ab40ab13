import Verif.Model.Subdivision
import Verif.Props.Mpi
import Verif.Props.Allocation
import Mathlib.Algebra.Order.Round
import Mathlib.Tactic.FieldSimp

/-!
# C79 – C83: serial and MPI subdivision, physical extents, exchange of buffers, reductions
-/

namespace Schnek.Props

open Schnek Schnek.Spec Schnek.Mpi Schnek.Subdivision Schnek.Lemma.Mpi Function
open Schnek.Alloc (Shares access)

variable {n : ℕ}

/-! ## C79 -/

/-- an MPI subdivision with a single process -/
structure SingleProcess (S : Setup n) : Prop where
  dims : ∀ i, S.dims i = 1

private theorem single_start {S : Setup n} (hS : SingleProcess S) (c : Coord S) (i : Fin n) :
    (c i).1 = 0 ∧ start S i ((c i).1 + 1) = S.globalHi i + 1 := by
  have h0 : (c i).1 = 0 := by have := (c i).2; have := hS.dims i; omega
  refine ⟨h0, ?_⟩
  have := start_dims S i (by rw [hS.dims]; exact Nat.one_pos)
  rw [hS.dims] at this
  rw [h0]
  exact this

/-- **C79** (partial) A serial subdivision and an MPI subdivision with a single process have the same local domain and the same
inner domain if the serial one is initialised with limits including the ghost cells and the MPI one with limits without them;
with the same arguments if there are no ghost cells. -/
theorem C79_serial_like_single_process_partial (S : Setup n) (hS : SingleProcess S) (c : Coord S) :
    let B := serialInit (fun _ => -S.delta) (fun i => S.globalHi i + S.delta) S.delta
    bounds S c = B ∧ B.innerDomain = ⟨fun _ => 0, S.globalHi⟩ ∧
      (S.delta = 0 → bounds S c = serialInit (fun _ => 0) S.globalHi S.delta) := by
  have hb : bounds S c = serialInit (fun _ => -S.delta) (fun i => S.globalHi i + S.delta) S.delta := by
    have h : (bounds S c).size = ⟨fun _ => -S.delta, fun i => S.globalHi i + S.delta⟩ := by
      refine range_ext' (fun i => ?_) (fun i => ?_)
      · rw [size_lo, (single_start hS c i).1, start_zero, zero_sub]
      · rw [size_hi, (single_start hS c i).2, add_sub_cancel_right]
    show (⟨(bounds S c).size, S.delta⟩ : Boundary n) = _
    rw [h]
    rfl
  refine ⟨hb, ?_, fun h0 => ?_⟩
  · refine range_ext' (fun i => ?_) (fun i => ?_) <;> simp [serialInit, Boundary.innerDomain]
  · rw [hb, h0]
    simp [serialInit]

example : ∃ S : Setup 2, SingleProcess S ∧ 1 ≤ S.delta ∧ ∀ i, S.delta ≤ S.globalHi i :=
  ⟨⟨![0, 0], ![9, 14], ![1, 1], fun _ _ => 0, 2⟩, ⟨by decide⟩, by decide, by decide⟩

/-- **C79** FINDING: for the same call `init(0, high, delta)` with at least one ghost cell the two subdivisions disagree: the MPI
subdivision takes the limits as those of the inner cells, the serial one as those of all cells. The inner domain is `0 … high` in
the first case and `delta … high - delta` in the second. -/
theorem C79_violated_same_call (S : Setup n) (hS : SingleProcess S) (hδ : 1 ≤ S.delta) (c : Coord S) (d : Fin n) :
    (bounds S c).innerDomain = ⟨fun _ => 0, S.globalHi⟩ ∧
    (serialInit (fun _ => 0) S.globalHi S.delta).innerDomain = ⟨fun _ => S.delta, fun i => S.globalHi i - S.delta⟩ ∧
    (bounds S c).innerDomain ≠ (serialInit (fun _ => 0) S.globalHi S.delta).innerDomain ∧
    (bounds S c).size ≠ (serialInit (fun _ => 0) S.globalHi S.delta).size := by
  have h1 : (bounds S c).innerDomain = ⟨fun _ => 0, S.globalHi⟩ := by
    rw [(C79_serial_like_single_process_partial S hS c).1]
    exact (C79_serial_like_single_process_partial S hS c).2.1
  have h2 : (serialInit (fun _ => 0) S.globalHi S.delta).innerDomain = ⟨fun _ => S.delta, fun i => S.globalHi i - S.delta⟩ := by
    refine range_ext' (fun i => ?_) (fun i => ?_) <;> simp [serialInit, Boundary.innerDomain]
  refine ⟨h1, h2, ?_, ?_⟩
  · rw [h1, h2]
    intro h
    have := congrFun (congrArg Range.lo h) d
    simp only at this
    omega
  · intro h
    have := congrFun (congrArg Range.lo h) d
    rw [size_lo, (single_start hS c d).1, start_zero] at this
    simp only [serialInit] at this
    omega

/-- **C79** FINDING: `getGlobalDomain`, documented to exclude the ghost cells, includes them for the serial subdivision: the
lowest cell of the global domain is a ghost cell. For an MPI subdivision with lower limit 0 every cell of the global domain is an
inner cell of some process. -/
theorem C79_violated_global_domain (low high : Idx n) (delta : ℤ) (hδ : 1 ≤ delta) (hne : ∀ i, low i ≤ high i) (d : Fin n) :
    let B := serialInit low high delta
    low ∈ box (serialGlobalDomain B) ∧ low ∉ box B.innerDomain := by
  refine ⟨fun i => ⟨le_rfl, hne i⟩, fun h => ?_⟩
  have := (h d).1
  simp only [serialInit, Boundary.innerDomain] at this
  omega

/-- **C79** A subdivision that is initialised with a size: on a single process the inner cells are exactly those with
`0 ≤ p i < size i`, and for the serial subdivision these are all cells, including the ghost cells. -/
theorem C79_size_partial (S : Setup n) (size : Idx n) (hS : SingleProcess S) (hh : S.globalHi = (ofSize size).hi) (c : Coord S)
    (p : Idx n) :
    (p ∈ box (bounds S c).innerDomain ↔ ∀ i, 0 ≤ p i ∧ p i < size i) ∧
    (p ∈ box (serialInit (ofSize size).lo (ofSize size).hi S.delta).size ↔ ∀ i, 0 ≤ p i ∧ p i < size i) := by
  have h : (bounds S c).innerDomain = ⟨fun _ => 0, S.globalHi⟩ := by
    rw [(C79_serial_like_single_process_partial S hS c).1]
    exact (C79_serial_like_single_process_partial S hS c).2.1
  rw [h, hh]
  constructor <;> exact forall_congr' fun i => by simp only [ofSize, serialInit]; omega

/-! ## C80 -/

section extent

variable {K : Type} [Field K] [LinearOrder K] [IsStrictOrderedRing K]

/-- the width of a cell if the global domain of `N` cells has the given physical extent -/
def cellWidth (S : Setup n) (extLo extHi : Fin n → K) (d : Fin n) : K :=
  (extHi d - extLo d) / ((S.globalHi d + 1 : ℤ) : K)

/-- **C80** (partial: lower limit 0; MPI subdivision) The physical extents of the inner domains tile the global extent: the first
process in a dimension begins at its lower end, the last one ends at its upper end, each one ends where the next one begins, and
each one has the width of its inner cells. -/
theorem C80_extents_tile_partial (S : Setup n) (h0 : ∀ i, S.globalLo i = 0) (hN : ∀ i, 0 ≤ S.globalHi i)
    (extLo extHi : Fin n → K) (c : Coord S) (d : Fin n) :
    let E c := innerExtent (bounds S c).innerDomain (mpiGlobalDomain S) extLo extHi
    ((c d).1 = 0 → (E c).1 d = extLo d) ∧
    ((c d).1 + 1 = S.dims d → (E c).2 d = extHi d) ∧
    ((c d).1 + 1 < S.dims d → (E c).2 d = (E (next S c d)).1 d) ∧
    (E c).2 d - (E c).1 d = innerWidth (bounds S c) d * cellWidth S extLo extHi d := by
  have hw : ∀ i, (extHi i - extLo i) / (((mpiGlobalDomain S).hi i - (mpiGlobalDomain S).lo i + 1 : ℤ) : K) =
      cellWidth S extLo extHi i := fun i => by
    simp only [mpiGlobalDomain, h0, sub_zero, cellWidth]
  have hne : ((S.globalHi d + 1 : ℤ) : K) ≠ 0 := by
    have := hN d
    exact_mod_cast (by omega : S.globalHi d + 1 ≠ 0)
  simp only [innerExtent, hw, inner_lo, inner_hi, innerWidth_eq, sub_add_cancel]
  refine ⟨fun h => ?_, fun h => ?_, fun h => ?_, ?_⟩
  · rw [h, start_zero]; simp
  · rw [h, start_dims S d (by omega), cellWidth]
    field_simp
    ring
  · have := start_next S c d
    rw [hiShift, if_neg (by omega), add_zero] at this
    rw [this]
  · push_cast
    ring

/-- **C80** The same for the overload with the sizes of the domain, which begins at the origin. -/
theorem C80_array_partial (S : Setup n) (h0 : ∀ i, S.globalLo i = 0) (hN : ∀ i, 0 ≤ S.globalHi i) (ext : Fin n → K) (c : Coord S)
    (d : Fin n) :
    let E c := innerExtentArray (bounds S c).innerDomain (mpiGlobalDomain S) ext
    ((c d).1 = 0 → (E c).1 d = 0) ∧
    ((c d).1 + 1 = S.dims d → (E c).2 d = ext d) ∧
    ((c d).1 + 1 < S.dims d → (E c).2 d = (E (next S c d)).1 d) ∧
    (E c).2 d - (E c).1 d = innerWidth (bounds S c) d * (ext d / ((S.globalHi d + 1 : ℤ) : K)) := by
  have h := C80_extents_tile_partial S h0 hN (fun _ => 0) ext c d
  simp only [cellWidth, sub_zero] at h
  exact h

/-- **C80** (partial: lower limit 0; MPI subdivision; exact arithmetic) A field on the inner domain of a process with the extent
`getInnerExtent(globalExtent)` assigns the same physical position to a cell index as a field on the whole domain: the position
does not depend on the process. -/
theorem C80_positions_agree_partial [FloorRing K] (S : Setup n) (h0 : ∀ i, S.globalLo i = 0) (hN : ∀ i, 0 ≤ S.globalHi i)
    (hw : ∀ c i, 1 ≤ innerWidth (bounds S c) i) (extLo extHi : Fin n → K) (stagger : Fin n → Bool) (ghost ghost' : ℤ)
    (c : Coord S) (d : Fin n) (x : ℤ) :
    let E := innerExtent (bounds S c).innerDomain (mpiGlobalDomain S) extLo extHi
    (FieldShape.ofLimits (bounds S c).innerDomain.lo (bounds S c).innerDomain.hi E.1 E.2 stagger ghost).indexToPosition d x =
      (FieldShape.ofLimits S.globalLo S.globalHi extLo extHi stagger ghost').indexToPosition d x := by
  have hwid : (extHi d - extLo d) / (((mpiGlobalDomain S).hi d - (mpiGlobalDomain S).lo d + 1 : ℤ) : K) =
      cellWidth S extLo extHi d := by
    simp only [mpiGlobalDomain, h0, sub_zero, cellWidth]
  have hne : ((S.globalHi d : ℤ) : K) + 1 ≠ 0 := by
    have := hN d
    exact_mod_cast (by omega : S.globalHi d + 1 ≠ 0)
  have hw' : (innerWidth (bounds S c) d : K) ≠ 0 := by
    have := hw c d
    exact_mod_cast (by omega : innerWidth (bounds S c) d ≠ 0)
  rw [innerWidth_eq] at hw'
  push_cast at hw'
  simp only [innerExtent, FieldShape.indexToPosition, FieldShape.ofLimits, hwid, inner_lo, inner_hi, sub_add_cancel, h0]
  push_cast
  rw [show ((start S d ((c d).1 + 1) : ℤ) : K) - 1 + ghost - ((start S d (c d).1 : ℤ) - ghost) - 2 * ghost + 1 =
    (start S d ((c d).1 + 1) : ℤ) - (start S d (c d).1 : ℤ) by ring,
    show ((S.globalHi d : ℤ) : K) + ghost' - (0 - ghost') - 2 * ghost' + 1 = S.globalHi d + 1 by ring,
    show extLo d + ((start S d ((c d).1 + 1) : ℤ) : K) * cellWidth S extLo extHi d -
      (extLo d + ((start S d (c d).1 : ℤ) : K) * cellWidth S extLo extHi d) =
      cellWidth S extLo extHi d * ((start S d ((c d).1 + 1) : ℤ) - (start S d (c d).1 : ℤ)) by ring, cellWidth]
  push_cast
  field_simp
  ring

/-- **C80** FINDING: if the lower limit is not 0 the extents are wrong: with the global cells `1 … 10` the extents of the
processes (together) begin at the lower end of the global extent but reach past its upper end. -/
theorem C80_violated_lower_limit : ∃ (S : Setup 1) (c : Coord S), Initialised S id ∧ S.globalLo 0 = 1 ∧ S.globalHi 0 = 10 ∧
    (innerExtent (bounds S c).innerDomain (mpiGlobalDomain S) (fun _ => (0 : ℚ)) (fun _ => 1)).2 0 = 11 / 10 := by
  refine ⟨⟨fun _ => 1, fun _ => 10, fun _ => 1, fun _ k => cutOf id 10 1 k, 1⟩, fun _ => 0,
    ⟨rounding_id, fun _ _ => rfl, fun i => by fin_cases i; decide, fun i => by fin_cases i; decide⟩, rfl, rfl, ?_⟩
  simp only [innerExtent, mpiGlobalDomain, inner_hi]
  simp [start]
  norm_num

/-- **C80** FINDING: for the serial subdivision, initialised with the limits of all cells, the extent of the inner domain (which
consists of all cells other than ghost cells) is not the global extent if there are ghost cells. -/
theorem C80_violated_serial (high : Idx n) (delta : ℤ) (hδ : 1 ≤ delta) (hw : ∀ i, 2 * delta ≤ high i)
    (extLo extHi : Fin n → K) (hext : ∀ i, extLo i < extHi i) (d : Fin n) :
    let B := serialInit (fun _ => 0) high delta
    let E := innerExtent B.innerDomain (serialGlobalDomain B) extLo extHi
    extLo d < E.1 d ∧ E.2 d < extHi d := by
  have h1 := hw d
  have hd : (0 : K) < delta := by exact_mod_cast hδ
  have hN : (0 : K) < high d + 1 := by exact_mod_cast (by omega : (0 : ℤ) < high d + 1)
  have hL : 0 < extHi d - extLo d := sub_pos.mpr (hext d)
  simp only [innerExtent, serialInit, Boundary.innerDomain, serialGlobalDomain]
  push_cast
  constructor
  · have : 0 < (0 + (delta : K)) * ((extHi d - extLo d) / ((high d : K) - 0 + 1)) := by
      rw [zero_add, sub_zero]; positivity
    linarith
  · have hq : ((high d : K) - delta + 1) * ((extHi d - extLo d) / ((high d : K) - 0 + 1)) < extHi d - extLo d := by
      rw [sub_zero, ← mul_div_assoc, div_lt_iff₀ hN]
      nlinarith
    linarith

end extent

/-- non-vacuity of C80: the example of C23, with all widths at least 1 -/
example : (∀ i, exampleSetup.globalLo i = 0) ∧ (∀ i, 0 ≤ exampleSetup.globalHi i) ∧
    ∀ c i, 1 ≤ innerWidth (bounds exampleSetup c) i :=
  ⟨fun i => by fin_cases i <;> rfl, fun i => by fin_cases i <;> decide,
    wide_enough exampleSetup id exampleSetup_initialised fun i => by fin_cases i <;> decide⟩

/-! ## C81 -/

/-- **C81** FINDING: after `exchangeData(dim, orientation, in, out)` of a serial subdivision the two buffers share their data: every
element of `out` is the same memory as that of `in`, so a later change of one of them changes the other one. -/
theorem C81_violated_serial_aliases (h h' : Alloc.Heap 0) (hr : Reach .c false h) (i o : ℕ)
    (hok : AssignOk false h (.assign o i)) (hs : serialExchangeData h i o = .ok h') : Shares h' o i :=
  C09_copy_and_assign_share .c false h h' hr o i (Or.inr ⟨hok, hs⟩)

/-- non-vacuity: a buffer of five bytes is passed with a new output buffer -/
example : ∃ h h' : Alloc.Heap 0, Reach .c false h ∧ AssignOk false h (.assign 2 1) ∧ serialExchangeData h 1 2 = .ok h' := by
  have ht : runTest (n := 0) .c false [.construct 1, .resize 1 ⟨fun _ => 0, fun _ => 4⟩ false 0]
      (fun h => match Alloc.step .c false h (.construct 2) with
        | .ok h1 => (match serialExchangeData h1 1 2 with | .ok _ => true | .error _ => false)
        | .error _ => false) = true := by decide
  obtain ⟨h0, h1, h2⟩ := runTest_iff.mp ht
  have hr := C09_histories_without_assignment_reach .c false _ (by simp) h0 h1
  cases e : Alloc.step .c false h0 (.construct 2) with
  | error _ => simp [e] at h2
  | ok h =>
    cases e' : serialExchangeData h 1 2 with
    | error _ => simp [e, e'] at h2
    | ok h' => exact ⟨h, h', .step (op := .construct 2) hr trivial e, C09_assign_to_fresh_allowed .c false h0 h hr 2 1 e, e'⟩

/-- **C81** (partial: MPI subdivision) The buffers do not share data afterwards if they did not before, and other grids keep their
shape. -/
theorem C81_mpi_buffers_separate_partial (h h' : Alloc.Heap 0) (hr : Reach .c false h) (i o : ℕ) (recvSize : ℕ)
    (hs : mpiExchangeDataResize h o recvSize = .ok h') : Shares h' o i ↔ Shares h o i :=
  C09_sharing_persists .c false h h' hr (.resize o _ false 0) trivial hs o i (fun h => h) (fun h => h)

/-- **C81** (partial: MPI subdivision, buffers that do not share data) The memory of the output buffer is made ready for the message
without touching the input buffer: the output buffer has exactly the indices `0, …, recvSize - 1`, and every element of `in` is at
the same place as before. -/
theorem C81_mpi_input_untouched_partial (h : Alloc.Heap 0) (hr : Reach .c false h) (i o : ℕ) (oi oo : Alloc.Obj 0)
    (hi : h.objs i = some oi) (ho : h.objs o = some oo) (hns : ¬ Shares h i o) (recvSize : ℕ) :
    ∃ h' oo', mpiExchangeDataResize h o recvSize = .ok h' ∧ h'.objs o = some oo' ∧
      (∀ p : Fin 1 → ℤ, InBox oo'.range.lo oo'.range.hi p ↔ 0 ≤ p 0 ∧ p 0 < recvSize) ∧
      h'.objs i = some oi ∧
      (oi.size ≠ 0 → ∏ k, extent oi.range.lo oi.range.hi k < 2 ^ 64 →
        ∀ p, InBox oi.range.lo oi.range.hi p → access .c h' i p = access .c h i p ∧ (access .c h' i p).isSome) := by
  obtain ⟨h', e1, e2, e3⟩ := C09_resize .c false h hr o oo ho ⟨fun _ => 0, fun _ => (recvSize : ℤ) - 1⟩ false 0
  have hi' := e3 i oi hi hns
  obtain ⟨ob, f1, f2, _⟩ := e2 o ⟨oo, oo, ho, ho, rfl⟩
  refine ⟨h', ob, e1, f1, fun p => ?_, hi', fun hsz hfit p hp => ?_⟩
  · rw [f2]
    constructor
    · intro hp
      have := hp 0
      simp only at this
      omega
    · intro hp k
      obtain rfl : k = 0 := Subsingleton.elim (α := Fin 1) _ _
      simp only
      omega
  have hr' : Reach .c false h' := .step (op := .resize o _ false 0) hr trivial e1
  have a1 := ((C09_shape_matches_buffer_partial .c false h hr hi hi).2 hsz hfit p hp).1
  have a2 := ((C09_shape_matches_buffer_partial .c false h' hr' hi' hi').2 hsz hfit p hp).1
  refine ⟨?_, a2⟩
  simp only [access, hi, hi'] at a1 a2 ⊢
  cases hb : oi.fast.1 with
  | none => rfl
  | some b =>
    simp only [hb] at a1 a2 ⊢
    cases c1 : h.bufs b with
    | unused => simp [c1] at a1
    | freed => simp [c1] at a1
    | live c =>
      cases c2 : h'.bufs b with
      | unused => simp [c2] at a2
      | freed => simp [c2] at a2
      | live c' =>
        have := C09_resize_keeps_capacity .c false h h' hr o _ false 0 e1 b c c' c1 c2
        subst this
        rfl

/-- **C81** FINDING: MPI subdivision, buffers that share data (the same variable passed twice, a copy, or the two buffers of an
exchange in a serial subdivision). The resize of the output buffer replaces the memory of the input buffer too, before its contents
have been sent: the input then has the size of the message that is to be received, and each of its elements is the memory into
which the message is received, so that the two regions given to `MPI_Sendrecv` overlap. -/
theorem C81_violated_mpi_shared_buffers (h : Alloc.Heap 0) (hr : Reach .c false h) (i o : ℕ) (hsh : Shares h i o)
    (recvSize : ℕ) (h0 : 0 < recvSize) (h1 : recvSize < 2 ^ 31) :
    ∃ h' oi, mpiExchangeDataResize h o recvSize = .ok h' ∧ h'.objs i = some oi ∧ oi.size = recvSize ∧
      ∀ p, InBox oi.range.lo oi.range.hi p → access .c h' i p = access .c h' o p ∧ (access .c h' i p).isSome := by
  obtain ⟨oi, oo, hi, ho, hd⟩ := hsh
  obtain ⟨h', e1, e2, _⟩ := C09_resize .c false h hr o oo ho ⟨fun _ => 0, fun _ => (recvSize : ℤ) - 1⟩ false 0
  have hr' : Reach .c false h' := .step (op := .resize o _ false 0) hr trivial e1
  have hfit : ∏ k : Fin 1, extent (fun _ => 0) (fun _ => (recvSize : ℤ) - 1) k = recvSize := by
    simp [extent]
  obtain ⟨ob, f1, f2, f3⟩ := e2 i ⟨oi, oo, hi, ho, hd⟩
  obtain ⟨oc, g1, _, _⟩ := e2 o ⟨oo, oo, ho, ho, rfl⟩
  have hsz := f3 (fun _ => by show (0 : ℤ) ≤ recvSize - 1; omega) (by rw [hfit]; norm_num; omega)
  rw [hfit] at hsz
  have hsh' : Shares h' i o :=
    (C09_sharing_persists .c false h h' hr (.resize o _ false 0) trivial e1 i o (fun h => h) (fun h => h)).mpr
      ⟨oi, oo, hi, ho, hd⟩
  refine ⟨h', ob, e1, f1, by exact_mod_cast hsz, fun p hp => ?_⟩
  obtain ⟨a1, a2, _⟩ := (C09_shape_matches_buffer_partial .c false h' hr' f1 g1).2
    (by have : ob.size = recvSize := by exact_mod_cast hsz
        omega) (by rw [f2, hfit]; norm_num; omega) p hp
  exact ⟨(a2 hsh').symm, a1⟩

/-- non-vacuity of both: three buffers, the second one a copy of the first one, the third one separate -/
example : ∃ h : Alloc.Heap 0, Reach .c false h ∧ Shares h 2 1 ∧ ∃ o1 o3, h.objs 1 = some o1 ∧ h.objs 3 = some o3 ∧ o1.size = 5 ∧
    ¬ Shares h 1 3 := by
  have ht : runTest (n := 0) .c false [.construct 1, .resize 1 ⟨fun _ => 0, fun _ => 4⟩ false 0, .copy 2 1, .construct 3]
      (fun h => match h.objs 1, h.objs 2, h.objs 3 with
        | some o1, some o2, some o3 => o1.size == 5 && o2.data == o1.data && o1.data != o3.data
        | _, _, _ => false) = true := by decide
  obtain ⟨h, e1, e2⟩ := runTest_iff.mp ht
  refine ⟨h, C09_histories_without_assignment_reach .c false _ (by simp) h e1, ?_⟩
  cases c1 : h.objs 1 with
  | none => simp [c1] at e2
  | some o1 =>
    cases c2 : h.objs 2 with
    | none => simp [c1, c2] at e2
    | some o2 =>
      cases c3 : h.objs 3 with
      | none => simp [c1, c2, c3] at e2
      | some o3 =>
        simp only [c1, c2, c3, Bool.and_eq_true, beq_iff_eq, bne_iff_ne] at e2
        refine ⟨⟨o2, o1, c2, c1, e2.1.2⟩, o1, o3, rfl, rfl, e2.1.1, ?_⟩
        rintro ⟨a, b, x1, x2, x3⟩
        rw [c1] at x1; rw [c3] at x2
        cases x1; cases x2
        exact e2.2 x3

/-! ## C82 -/

/-- **C82** `isBoundLo(dim)` is true in exactly those processes which own cells on the lower boundary of the global domain in this
dimension, `isBoundHi(dim)` in those which own cells on the upper boundary. -/
theorem C82_bound_flags (S : Setup n) (hw : ∀ c i, 1 ≤ innerWidth (bounds S c) i) (c : Coord S) (d : Fin n) :
    (isBoundLo S c d = true ↔ ∃ p ∈ box (bounds S c).innerDomain, p d = 0) ∧
    (isBoundHi S c d = true ↔ ∃ p ∈ box (bounds S c).innerDomain, p d = S.globalHi d) := by
  have hstep : ∀ k < S.dims d, start S d k + 1 ≤ start S d (k + 1) := fun k hk => by
    have h := hw (update c d ⟨k, hk⟩) d
    rw [innerWidth_eq, update_self] at h
    simp only at h
    omega
  have hmono : ∀ j k, j ≤ k → k ≤ S.dims d → start S d j + (k - j : ℕ) ≤ start S d k := by
    intro j k hjk
    induction hjk with
    | refl => intro _; simp
    | @step k hjk ih =>
      intro hk
      have := ih (by omega)
      have := hstep k (by omega)
      have hjk : j ≤ k := hjk
      rw [Nat.succ_eq_add_one, show k + 1 - j = (k - j) + 1 by omega]
      push_cast
      omega
  have hlt := (c d).2
  have hne : ∀ i, (bounds S c).innerDomain.lo i ≤ (bounds S c).innerDomain.hi i := fun i => by
    have := hw c i
    rw [innerWidth] at this
    omega
  have hdim := start_dims S d (by omega)
  have e1 := hmono 0 (c d).1 (Nat.zero_le _) (by omega)
  have e2 := hmono ((c d).1 + 1) (S.dims d) (by omega) le_rfl
  rw [start_zero] at e1
  constructor
  · rw [isBoundLo, decide_eq_true_eq]
    constructor
    · intro h
      refine ⟨(bounds S c).innerDomain.lo, fun i => ⟨le_rfl, hne i⟩, ?_⟩
      rw [inner_lo, h, start_zero]
    · rintro ⟨p, hp, h0⟩
      have := (hp d).1
      rw [inner_lo, h0] at this
      omega
  · rw [isBoundHi, decide_eq_true_eq]
    constructor
    · intro h
      refine ⟨(bounds S c).innerDomain.hi, fun i => ⟨hne i, le_rfl⟩, ?_⟩
      rw [inner_hi, show (c d).1 + 1 = S.dims d by omega, hdim]
      ring
    · rintro ⟨p, hp, h0⟩
      have := (hp d).2
      rw [inner_hi, h0] at this
      omega

/-! ## C83 -/

private theorem reduction_mem {α : Type} [LinearOrder α] {s : Multiset α} {r : α}
    (h : Reduction (fun a b => some (max a b)) s r) : r ∈ s ∧ ∀ x ∈ s, x ≤ r := by
  induction h with
  | one a => simp
  | @join s t a b r _ _ e ih1 ih2 =>
    cases e
    refine ⟨?_, fun x hx => ?_⟩
    · rw [Multiset.mem_add]
      rcases le_total a b with h | h
      · rw [max_eq_right h]; exact Or.inr ih2.1
      · rw [max_eq_left h]; exact Or.inl ih1.1
    · rcases Multiset.mem_add.mp hx with hx | hx
      · exact (ih1.2 x hx).trans (le_max_left _ _)
      · exact (ih2.2 x hx).trans (le_max_right _ _)

private theorem reduction_exists {α : Type} {op : α → α → α} (s : Multiset α) (hs : s ≠ 0) :
    ∃ r, Reduction (fun a b => some (op a b)) s r := by
  induction s using Multiset.induction_on with
  | empty => exact absurd rfl hs
  | cons a s ih =>
    by_cases h0 : s = 0
    · subst h0; exact ⟨a, .one a⟩
    · obtain ⟨r, hr⟩ := ih h0
      rw [← Multiset.singleton_add]
      exact ⟨_, .join (.one a) hr rfl⟩

private theorem values_ne {S : Setup n} {α : Type} (v : Coord S → α) (c : Coord S) : values v ≠ 0 := by
  intro h
  have : v c ∈ values v := Multiset.mem_map_of_mem v (Finset.mem_univ c)
  rw [h] at this
  simp at this

/-- **C83** `maxReduce` returns, in all processes, the largest of the values; `minReduce` the smallest. -/
theorem C83_max_min {α : Type} [LinearOrder α] (S : Setup n) (v : Coord S → α) (c : Coord S) :
    (∃ c₀, (∀ c, v c ≤ v c₀) ∧ ∀ r, MaxReduce v r ↔ r = v c₀) ∧
    (∃ c₀, (∀ c, v c₀ ≤ v c) ∧ ∀ r, MinReduce v r ↔ r = v c₀) := by
  have key : ∀ {β : Type} [LinearOrder β] (v : Coord S → β),
      ∃ c₀, (∀ c, v c ≤ v c₀) ∧ ∀ r, Reduction (fun a b => some (max a b)) (values v) r ↔ r = v c₀ := by
    intro β _ v
    obtain ⟨r, hr⟩ := reduction_exists (op := max) (values v) (values_ne v c)
    obtain ⟨h1, h2⟩ := reduction_mem hr
    obtain ⟨c₀, -, e⟩ := Multiset.mem_map.mp h1
    refine ⟨c₀, fun c => e ▸ h2 _ (Multiset.mem_map_of_mem v (Finset.mem_univ c)), fun r' => ⟨fun h => ?_, fun h => ?_⟩⟩
    · obtain ⟨h3, h4⟩ := reduction_mem h
      rw [e]
      exact le_antisymm (h2 _ h3) (h4 _ h1)
    · rw [h, e]; exact hr
  refine ⟨key v, ?_⟩
  exact key (β := αᵒᵈ) v

private theorem reduction_sum {s : Multiset ℤ} {r : ℤ} (h : Reduction addInt s r) : r = s.sum := by
  induction h with
  | one a => simp
  | join _ _ e ih1 ih2 =>
    rw [addInt] at e
    split_ifs at e
    cases e
    rw [Multiset.sum_add, ih1, ih2]

private theorem reduction_sum_exists (s : Multiset ℤ) (hs : s ≠ 0) (hb : (s.map fun x => |x|).sum < 2 ^ 31) :
    Reduction addInt s s.sum ∧ |s.sum| < 2 ^ 31 := by
  induction s using Multiset.induction_on with
  | empty => exact absurd rfl hs
  | cons a s ih =>
    rw [Multiset.map_cons, Multiset.sum_cons] at hb
    by_cases h0 : s = 0
    · subst h0
      simp only [Multiset.map_zero, Multiset.sum_zero, add_zero] at hb
      rw [Multiset.sum_cons, Multiset.sum_zero, add_zero]
      exact ⟨.one a, hb⟩
    · have hn : 0 ≤ |a| := abs_nonneg a
      obtain ⟨h1, h2⟩ := ih h0 (by omega)
      have h3 : |s.sum| ≤ (s.map fun x => |x|).sum := Multiset.abs_sum_le_sum_abs
      have h4 : |a + s.sum| ≤ |a| + |s.sum| := abs_add_le _ _
      rw [Multiset.sum_cons, ← Multiset.singleton_add]
      have h5 : |a + s.sum| < 2 ^ 31 := by omega
      refine ⟨.join (.one a) h1 ?_, h5⟩
      rw [abs_lt] at h5
      rw [addInt, if_pos ⟨by omega, h5.2⟩]

/-- **C83** `sumReduce(int)` returns the sum of the values if the sum of their absolute values fits in an `int`; any result it
returns otherwise (without overflow) is the sum as well. -/
theorem C83_sum (S : Setup n) (v : Coord S → ℤ) (c : Coord S) :
    (∀ r, SumReduce v r → r = ∑ c, v c) ∧ (∑ c, |v c| < 2 ^ 31 → SumReduce v (∑ c, v c)) := by
  have hs : (values v).sum = ∑ c, v c := rfl
  constructor
  · intro r h
    rw [reduction_sum h, hs]
  · intro hb
    rw [← hs]
    refine (reduction_sum_exists (values v) (values_ne v c) ?_).1
    rw [values, Multiset.map_map]
    exact hb

/-- rounding to `double` is accurate for numbers of either sign -/
structure SymmetricRounding (rnd : ℚ → ℚ) : Prop extends Rounding rnd where
  rel_abs : ∀ x, 1 / 2 ^ 40 ≤ |x| → |x| ≤ 2 ^ 40 → |rnd x - x| ≤ |x| / 2 ^ 52

private theorem toInt_quotient {rnd : ℚ → ℚ} (hr : SymmetricRounding rnd) (s P : ℤ) (hs : |s| < 2 ^ 31) (hP : 1 ≤ P)
    (hP' : P < 2 ^ 31) : Mpi.toInt (rnd (s / P)) = s.tdiv P := by
  have hPq : (0 : ℚ) < P := by exact_mod_cast hP
  have hP1 : (1 : ℚ) ≤ P := by exact_mod_cast hP
  have hP2 : (P : ℚ) < 2 ^ 31 := by exact_mod_cast hP'
  -- the error is less than the distance to the next integer
  have herr : ∀ a : ℤ, 0 < a → a < 2 ^ 31 → ∀ x : ℚ, |x| = a / P → |rnd x - x| < 1 / P := by
    intro a ha ha' x hx
    have ha1 : (1 : ℚ) ≤ a := by exact_mod_cast ha
    have ha2 : (a : ℚ) < 2 ^ 31 := by exact_mod_cast ha'
    have h1 : 1 / 2 ^ 40 ≤ |x| := by
      rw [hx, le_div_iff₀ hPq]
      linarith
    have h2 : |x| ≤ 2 ^ 40 := by
      rw [hx, div_le_iff₀ hPq]
      linarith
    refine (hr.rel_abs x h1 h2).trans_lt ?_
    rw [hx, div_div, div_lt_div_iff₀ (by positivity) hPq]
    nlinarith
  have hint : ∀ q : ℤ, |q| < 2 ^ 31 → rnd q = q := fun q hq => hr.int q (by linarith)
  rw [abs_lt] at hs
  rcases lt_trichotomy s 0 with h | h | h
  · -- negative
    obtain ⟨a, rfl⟩ : ∃ a, s = -a := ⟨-s, by ring⟩
    have ha : 0 < a := by omega
    have hq := Int.emod_add_mul_ediv a P
    have hr0 := Int.emod_nonneg a (show P ≠ 0 by omega)
    have hr1 := Int.emod_lt_of_pos a (show 0 < P by omega)
    have hq0 : 0 ≤ a / P := Int.ediv_nonneg ha.le (by omega)
    have hqa : a / P ≤ a := Int.ediv_le_self _ ha.le
    have e := herr a ha (by omega) (((-a : ℤ) : ℚ) / P) (by
      push_cast
      rw [abs_div, abs_neg, abs_of_pos (by exact_mod_cast ha : (0 : ℚ) < a), abs_of_pos hPq])
    rw [Int.neg_tdiv, Int.tdiv_eq_ediv_of_nonneg ha.le]
    have hx1 : (((-a : ℤ) : ℚ) / P) ≤ ((-(a / P) : ℤ) : ℚ) := by
      rw [div_le_iff₀ hPq]
      exact_mod_cast (by nlinarith : -a ≤ -(a / P) * P)
    have hx2 : ((-(a / P) : ℤ) : ℚ) - 1 + 1 / P ≤ (((-a : ℤ) : ℚ) / P) := by
      rw [le_div_iff₀ hPq, add_mul, div_mul_cancel₀ _ hPq.ne']
      have : -(a / P) * P - P + 1 ≤ -a := by nlinarith
      have : ((-(a / P) * P - P + 1 : ℤ) : ℚ) ≤ ((-a : ℤ) : ℚ) := by exact_mod_cast this
      push_cast at this ⊢
      linarith
    have h1 : rnd (((-a : ℤ) : ℚ) / P) ≤ ((-(a / P) : ℤ) : ℚ) := by
      rw [← hint (-(a / P)) (by rw [abs_neg, abs_of_nonneg hq0]; omega)]
      exact hr.mono hx1
    have h2 : ((-(a / P) : ℤ) : ℚ) - 1 < rnd (((-a : ℤ) : ℚ) / P) := by
      rw [abs_lt] at e
      linarith [e.1]
    rw [Mpi.toInt]
    split_ifs with hc
    · have h0 : a / P = 0 := by
        have : (0 : ℚ) ≤ ((-(a / P) : ℤ) : ℚ) := hc.trans h1
        have : 0 ≤ -(a / P) := by exact_mod_cast this
        omega
      rw [h0] at h1 ⊢
      rw [Int.floor_eq_iff]
      push_cast at h1 hc ⊢
      constructor <;> linarith
    · rw [Int.ceil_eq_iff]
      exact ⟨h2, h1⟩
  · subst h
    have := hint 0 (by norm_num)
    push_cast at this ⊢
    rw [zero_div, this]
    simp [Mpi.toInt]
  · have hq := Int.emod_add_mul_ediv s P
    have hr0 := Int.emod_nonneg s (show P ≠ 0 by omega)
    have hr1 := Int.emod_lt_of_pos s (show 0 < P by omega)
    have hq0 : 0 ≤ s / P := Int.ediv_nonneg h.le (by omega)
    have hqa : s / P ≤ s := Int.ediv_le_self _ h.le
    have e := herr s h hs.2 ((s : ℚ) / P) (by
      rw [abs_div, abs_of_pos (by exact_mod_cast h : (0 : ℚ) < s), abs_of_pos hPq])
    rw [Int.tdiv_eq_ediv_of_nonneg h.le]
    have hx1 : ((s / P : ℤ) : ℚ) ≤ (s : ℚ) / P := by
      rw [le_div_iff₀ hPq]
      exact_mod_cast (by nlinarith : s / P * P ≤ s)
    have hx2 : (s : ℚ) / P ≤ ((s / P : ℤ) : ℚ) + 1 - 1 / P := by
      rw [div_le_iff₀ hPq, sub_mul, div_mul_cancel₀ _ hPq.ne']
      have : s ≤ s / P * P + P - 1 := by nlinarith
      have : (s : ℚ) ≤ ((s / P * P + P - 1 : ℤ) : ℚ) := by exact_mod_cast this
      push_cast at this ⊢
      linarith
    have h1 : ((s / P : ℤ) : ℚ) ≤ rnd ((s : ℚ) / P) := by
      rw [← hint (s / P) (by rw [abs_of_nonneg hq0]; omega)]
      exact hr.mono hx1
    have h2 : rnd ((s : ℚ) / P) < ((s / P : ℤ) : ℚ) + 1 := by
      rw [abs_lt] at e
      linarith [e.2]
    rw [Mpi.toInt, if_pos (le_trans (by exact_mod_cast hq0) h1), Int.floor_eq_iff]
    exact ⟨h1, h2⟩

/-- **C83** `avgReduce(int)` returns the mean of the values, rounded towards zero, if the sum of their absolute values fits in
an `int`. -/
theorem C83_avg {rnd : ℚ → ℚ} (hr : SymmetricRounding rnd) (S : Setup n) (hP : ∏ i, S.dims i < 2 ^ 31) (v : Coord S → ℤ)
    (c : Coord S) (hb : ∑ c, |v c| < 2 ^ 31) (r : ℤ) :
    AvgReduce rnd v r ↔ r = (∑ c, v c).tdiv (Fintype.card (Coord S)) := by
  have hcard : Fintype.card (Coord S) = ∏ i, S.dims i := by
    rw [Fintype.card_pi]
    simp
  have hpos : 1 ≤ ∏ i, S.dims i := by
    rw [← hcard]
    exact Fintype.card_pos_iff.mpr ⟨c⟩
  have hs := C83_sum S v c
  have habs : |∑ c, v c| < 2 ^ 31 := (Finset.abs_sum_le_sum_abs _ _).trans_lt hb
  have key := toInt_quotient hr (∑ c, v c) (∏ i, S.dims i : ℕ) habs (by exact_mod_cast hpos) (by exact_mod_cast hP)
  rw [hcard]
  constructor
  · rintro ⟨s, h1, h2⟩
    rw [hs.1 s h1] at h2
    rw [h2]
    exact_mod_cast key
  · intro h
    refine ⟨_, hs.2 hb, ?_⟩
    rw [h]
    exact_mod_cast key.symm

/-- non-vacuity of C83: six processes with different values of both signs -/
example : SymmetricRounding id ∧ ∏ i, exampleSetup.dims i < 2 ^ 31 ∧
    ∃ v : Coord exampleSetup → ℤ, ∑ c, |v c| < 2 ^ 31 ∧ ∑ c, v c = -3 := by
  refine ⟨⟨rounding_id, fun x _ _ => ?_⟩, by decide, fun c => 2 * (c 0).1 - 5 * (c 1).1, by decide, by decide⟩
  simp only [id, sub_self, abs_zero]
  positivity

end Schnek.Props
