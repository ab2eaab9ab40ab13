import Verif.Spec.Hdf

/-!
# Lemmas about HDF5 streams
-/

namespace Schnek.Lemma.Hdf

open Schnek Schnek.Spec Schnek.Hdf Schnek.Lemma

variable {n : ℕ} {T : Type}

theorem hsize_eq {x : ℤ} (h0 : 0 ≤ x) (h1 : x < 2 ^ 64) : hsize x = x := by
  unfold hsize
  rw [word_val h0 h1]
  omega

theorem rowMajor_foldl (lo hi p : Idx n) : ∀ (k : ℕ) (hk : k ≤ n),
    (List.finRange k).foldl (fun a i => a * extent lo hi (Fin.castLE hk i) + (p - lo) (Fin.castLE hk i)) 0 = pre lo hi p k hk
  | 0, _ => by simp [pre]
  | k + 1, hk => by
    rw [List.finRange_succ_last]
    simp only [List.foldl_append, List.foldl_map, List.foldl_cons, List.foldl_nil, pre]
    have := rowMajor_foldl lo hi p k (Nat.le_of_succ_le hk)
    have h0 : ∀ i : Fin k, Fin.castLE hk i.castSucc = Fin.castLE (Nat.le_of_succ_le hk) i := fun i => rfl
    simp only [h0]
    rw [this]
    have h1 : Fin.castLE hk (Fin.last k) = ⟨k, hk⟩ := rfl
    rw [h1, Pi.sub_apply]

theorem rowMajor_eq (lo hi p : Idx n) : rowMajor (extent lo hi) (p - lo) = pre lo hi p n le_rfl := rowMajor_foldl lo hi p n le_rfl

/-- for a grid in C order the row-major number is the number of the element in memory -/
theorem slot_rowMajor (g : Grid T n) (hg : Props.Usable g) (ho : g.order = .c) (p : Idx (n + 1)) (hp : InBox g.range.lo g.range.hi p) :
    (rowMajor (extent g.range.lo g.range.hi) (p - g.range.lo)).toNat = Storage.slot g.order g.range p := by
  have h := slot_toNat g.order g.range (by rw [vol_full]; exact hg.fits) hp
  rw [rowMajor_eq]
  rw [ho] at h ⊢
  simp only [addr] at h
  omega

theorem slot_injective (g : Grid T n) (hg : Props.Usable g) {p q : Idx (n + 1)} (hp : InBox g.range.lo g.range.hi p)
    (hq : InBox g.range.lo g.range.hi q) (h : Storage.slot g.order g.range p = Storage.slot g.order g.range q) : p = q := by
  apply addr_injective g.order g.range hp hq
  have hv : vol g.range.lo g.range.hi (n + 1) le_rfl < 2 ^ 64 := by rw [vol_full]; exact hg.fits
  rw [← slot_toNat g.order g.range hv hp, ← slot_toNat g.order g.range hv hq, h]

theorem slot_lt (g : Grid T n) (hg : Props.Usable g) {p : Idx (n + 1)} (hp : InBox g.range.lo g.range.hi p) :
    Storage.slot g.order g.range p < g.buf.length := by
  obtain ⟨v, hv⟩ := Props.C07_read_defined g hg p hp
  exact (List.getElem?_eq_some_iff.mp hv).1

theorem mem_positions (count q : Idx n) : InBox (positions count).lo (positions count).hi q ↔ ∀ i, 0 ≤ q i ∧ q i < count i := by
  unfold InBox positions
  refine forall_congr' fun i => ?_
  simp only
  omega

theorem put_spec (mem : List T) (memdims memstart start count : Idx n) (cells : Idx n → T) (v : Idx n → T)
    (h : ∀ q, (∀ i, 0 ≤ q i ∧ q i < count i) → mem[(rowMajor memdims (memstart + q)).toNat]? = some (v q)) :
    ∃ cells', put mem memdims memstart start count cells = some cells' ∧
      (∀ q, (∀ i, 0 ≤ q i ∧ q i < count i) → cells' (start + q) = v q) ∧
      ∀ p, ¬ (∀ i, 0 ≤ p i - start i ∧ p i - start i < count i) → cells' p = cells p := by
  obtain ⟨l, hl, hf⟩ := Props.C02_forEachC (positions count)
  unfold put
  rw [hf]
  have hmem : ∀ q, q ∈ l ↔ ∀ i, 0 ≤ q i ∧ q i < count i := fun q => by rw [hl.mem_iff, mem_positions]
  have key : ∀ (l : List (Idx n)) (cells : Idx n → T),
      (∀ q ∈ l, mem[(rowMajor memdims (memstart + q)).toNat]? = some (v q)) →
      ∃ cells', l.foldl (fun s q => s.bind fun cells =>
        (mem[(rowMajor memdims (memstart + q)).toNat]?).map fun v => replaced cells (start + q) v) (some cells) = some cells' ∧
        (∀ q ∈ l, cells' (start + q) = v q) ∧ ∀ p, (∀ q ∈ l, p ≠ start + q) → cells' p = cells p := by
    intro l
    induction l with
    | nil => exact fun cells _ => ⟨cells, rfl, by simp, fun _ _ => rfl⟩
    | cons q l ih =>
      intro cells h
      obtain ⟨cells', h1, h2, h3⟩ := ih (replaced cells (start + q) (v q)) fun q hq => h q (by simp [hq])
      refine ⟨cells', ?_, ?_, ?_⟩
      · rw [List.foldl_cons, Option.bind_some, h q (by simp)]
        exact h1
      · intro r hr
        by_cases hrl : r ∈ l
        · exact h2 r hrl
        · have hrq : r = q := by simpa [hrl] using hr
          rw [hrq] at hrl ⊢
          rw [h3 _ (fun q' hq' he => hrl (by rw [add_left_cancel he]; exact hq'))]
          simp [replaced]
      · intro p hp
        rw [h3 p (fun q' hq' => hp q' (by simp [hq']))]
        exact if_neg fun h => hp q (by simp) (funext h)
  obtain ⟨cells', h1, h2, h3⟩ := key l cells fun q hq => h q ((hmem q).mp hq)
  refine ⟨cells', h1, fun q hq => h2 q ((hmem q).mpr hq), fun p hp => h3 p fun q hq he => hp ?_⟩
  have := (hmem q).mp hq
  intro i
  have hi := this i
  rw [he, Pi.add_apply]
  omega

theorem fetch_spec (cells : Idx n → T) (memdims memstart start count : Idx n) (mem : List T)
    (h : ∀ q, (∀ i, 0 ≤ q i ∧ q i < count i) → (rowMajor memdims (memstart + q)).toNat < mem.length)
    (hinj : ∀ q r, (∀ i, 0 ≤ q i ∧ q i < count i) → (∀ i, 0 ≤ r i ∧ r i < count i) →
      (rowMajor memdims (memstart + q)).toNat = (rowMajor memdims (memstart + r)).toNat → q = r) :
    ∃ mem', fetch cells memdims memstart start count mem = some mem' ∧ mem'.length = mem.length ∧
      (∀ q, (∀ i, 0 ≤ q i ∧ q i < count i) → mem'[(rowMajor memdims (memstart + q)).toNat]? = some (cells (start + q))) ∧
      ∀ j, (∀ q, (∀ i, 0 ≤ q i ∧ q i < count i) → (rowMajor memdims (memstart + q)).toNat ≠ j) → mem'[j]? = mem[j]? := by
  obtain ⟨l, hl, hf⟩ := Props.C02_forEachC (positions count)
  unfold fetch
  rw [hf]
  have hmem : ∀ q, q ∈ l ↔ ∀ i, 0 ≤ q i ∧ q i < count i := fun q => by rw [hl.mem_iff, mem_positions]
  have key : ∀ (l : List (Idx n)) (mem : List T), l.Nodup →
      (∀ q ∈ l, (rowMajor memdims (memstart + q)).toNat < mem.length) →
      (∀ q ∈ l, ∀ r ∈ l, (rowMajor memdims (memstart + q)).toNat = (rowMajor memdims (memstart + r)).toNat → q = r) →
      ∃ mem', l.foldl (fun s q => s.bind fun mem =>
        if (rowMajor memdims (memstart + q)).toNat < mem.length then
          some (mem.set (rowMajor memdims (memstart + q)).toNat (cells (start + q)))
        else none) (some mem) = some mem' ∧ mem'.length = mem.length ∧
        (∀ q ∈ l, mem'[(rowMajor memdims (memstart + q)).toNat]? = some (cells (start + q))) ∧
        ∀ j, (∀ q ∈ l, (rowMajor memdims (memstart + q)).toNat ≠ j) → mem'[j]? = mem[j]? := by
    intro l
    induction l with
    | nil => exact fun mem _ _ _ => ⟨mem, rfl, rfl, by simp, fun _ _ => rfl⟩
    | cons q l ih =>
      intro mem hnd h hinj
      rw [List.nodup_cons] at hnd
      obtain ⟨mem', h1, h2, h3, h4⟩ := ih (mem.set (rowMajor memdims (memstart + q)).toNat (cells (start + q))) hnd.2
        (fun r hr => by rw [List.length_set]; exact h r (by simp [hr]))
        (fun r hr s hs => hinj r (by simp [hr]) s (by simp [hs]))
      refine ⟨mem', ?_, by rw [h2, List.length_set], ?_, ?_⟩
      · rw [List.foldl_cons, Option.bind_some, if_pos (h q (by simp))]
        exact h1
      · intro r hr
        rcases List.mem_cons.mp hr with rfl | hr
        · rw [h4 _ (fun s hs he => hnd.1 (by rw [hinj r (by simp) s (by simp [hs]) he.symm]; exact hs)), List.getElem?_set_self]
          exact h r (by simp)
        · exact h3 r hr
      · intro j hj
        rw [h4 j (fun s hs => hj s (by simp [hs])), List.getElem?_set_ne (hj q (by simp))]
  obtain ⟨mem', h1, h2, h3, h4⟩ := key l mem hl.nodup (fun q hq => h q ((hmem q).mp hq))
    (fun q hq r hr => hinj q r ((hmem q).mp hq) ((hmem r).mp hr))
  exact ⟨mem', h1, h2, fun q hq => h3 q ((hmem q).mpr hq), fun j hj => h4 j fun q hq => hj q ((hmem q).mp hq)⟩

theorem shape_fits {c : Container T n} (h : Placed c) : shape c =
    ⟨extent c.globalMin c.globalMax, extent c.localMin c.localMax, c.localMin - c.globalMin,
      extent c.grid.range.lo c.grid.range.hi, c.localMin - c.grid.range.lo⟩ := by
  unfold shape
  congr 1
  · funext i
    have h1 := h.localGlobal i
    have h3 := h.int i
    unfold IsInt at h3
    rw [hsize_eq (by omega) (by omega), extent]
    ring
  · funext i
    have h1 := h.localGlobal i
    have h3 := h.int i
    unfold IsInt at h3
    rw [hsize_eq (by omega) (by omega), extent]
  · funext i
    have h1 := h.localGlobal i
    have h3 := h.int i
    unfold IsInt at h3
    rw [hsize_eq (by omega) (by omega), Pi.sub_apply]
  · funext i
    have h1 := h.usable.nonempty i
    have h3 := h.int i
    unfold IsInt at h3
    rw [hsize_eq (by omega) (by omega), extent]
  · funext i
    have h1 := h.localGlobal i
    have h2 := h.localGrid i
    have h4 := h.usable.nonempty i
    have h3 := h.int i
    unfold IsInt at h3
    rw [hsize_eq (by omega) (by omega), Pi.sub_apply]

theorem fits_not_tooLarge {c : Container T n} (h : Placed c) : tooLarge (shape c) = false := by
  rw [shape_fits h]
  unfold tooLarge
  rw [decide_eq_false_iff_not]
  rintro ⟨i, hi⟩
  simp only [extent, Pi.sub_apply] at hi
  have h1 := h.localGlobal i
  have h3 := h.int i
  unfold IsInt at h3
  rw [hsize_eq (by omega) (by omega)] at hi
  omega

theorem fits_within {c : Container T n} (h : Placed c) :
    within (extent c.globalMin c.globalMax) (c.localMin - c.globalMin) (extent c.localMin c.localMax) = true ∧
    within (extent c.grid.range.lo c.grid.range.hi) (c.localMin - c.grid.range.lo) (extent c.localMin c.localMax) = true := by
  unfold within
  constructor <;> refine decide_eq_true_iff.mpr fun i => ?_ <;> simp only [extent, Pi.sub_apply]
  · have h1 := h.localGlobal i
    omega
  · have h1 := h.localGrid i
    omega

/-- a position of the selection as a position of the local part -/
theorem local_mem {c : Container T n} {q : Idx (n + 1)} (hq : ∀ i, 0 ≤ q i ∧ q i < extent c.localMin c.localMax i) :
    InBox c.localMin c.localMax (c.localMin + q) := by
  intro i
  have := hq i
  unfold extent at this
  rw [Pi.add_apply]
  omega

theorem grid_mem {c : Container T n} (h : Placed c) {p : Idx (n + 1)} (hp : InBox c.localMin c.localMax p) :
    InBox c.grid.range.lo c.grid.range.hi p := by
  intro i
  have := hp i
  have := h.localGrid i
  omega

theorem memAddr {c : Container T n} (h : Fits c) {q : Idx (n + 1)} (hq : ∀ i, 0 ≤ q i ∧ q i < extent c.localMin c.localMax i) :
    (rowMajor (extent c.grid.range.lo c.grid.range.hi) (c.localMin - c.grid.range.lo + q)).toNat =
      Storage.slot c.grid.order c.grid.range (c.localMin + q) := by
  rw [← slot_rowMajor c.grid h.usable h.order _ (grid_mem h.toPlaced (local_mem hq))]
  congr 2
  funext i
  simp only [Pi.add_apply, Pi.sub_apply]
  ring

theorem write_spec {c : Container T n} (h : Fits c) (D : Dataset (n + 1) T) (hD : D.dims = extent c.globalMin c.globalMax)
    (v : Idx (n + 1) → T) (hv : Holds v c) :
    ∃ D', write c D = .ok D' ∧ D'.dims = D.dims ∧
      (∀ p, InBox c.localMin c.localMax p → D'.cells (p - c.globalMin) = v p) ∧
      ∀ p, ¬ InBox c.localMin c.localMax p → D'.cells (p - c.globalMin) = D.cells (p - c.globalMin) := by
  obtain ⟨cells, h1, h2, h3⟩ := put_spec c.grid.buf (extent c.grid.range.lo c.grid.range.hi) (c.localMin - c.grid.range.lo)
    (c.localMin - c.globalMin) (extent c.localMin c.localMax) D.cells (fun q => v (c.localMin + q)) (by
      intro q hq
      rw [memAddr h hq]
      exact hv _ (local_mem hq))
  refine ⟨{ D with cells := cells }, ?_, rfl, ?_, ?_⟩
  · unfold write
    simp only
    rw [fits_not_tooLarge h.toPlaced, shape_fits h.toPlaced]
    simp only [Bool.false_eq_true, if_false]
    rw [if_neg (not_not.mpr hD), (fits_within h.toPlaced).1, (fits_within h.toPlaced).2]
    simp only [Bool.and_self, Bool.not_true, Bool.false_eq_true, if_false]
    rw [h1]
  · intro p hp
    have := h2 (p - c.localMin) (by
      intro i
      have := hp i
      unfold extent
      rw [Pi.sub_apply]
      omega)
    simp only [add_sub_cancel] at this
    rw [← this]
    show cells _ = cells _
    congr 1
    funext i
    simp only [Pi.add_apply, Pi.sub_apply]
    ring
  · intro p hp
    apply h3
    intro hc
    apply hp
    intro i
    have := hc i
    simp only [Pi.sub_apply, extent] at this
    omega

theorem read_spec {c : Container T n} (h : Fits c) (D : Dataset (n + 1) T) (hD : D.dims = extent c.globalMin c.globalMax) :
    ∃ c', Hdf.read D c = .ok c' ∧ c' = { c with grid := c'.grid } ∧ c'.grid.range = c.grid.range ∧ Props.Usable c'.grid ∧
      (∀ p, InBox c.localMin c.localMax p → c'.grid.get? p = some (D.cells (p - c.globalMin))) ∧
      ∀ p, InBox c.grid.range.lo c.grid.range.hi p → ¬ InBox c.localMin c.localMax p → c'.grid.get? p = c.grid.get? p := by
  obtain ⟨buf, h1, h2, h3, h4⟩ := fetch_spec D.cells (extent c.grid.range.lo c.grid.range.hi) (c.localMin - c.grid.range.lo)
    (c.localMin - c.globalMin) (extent c.localMin c.localMax) c.grid.buf (by
      intro q hq
      rw [memAddr h hq]
      exact slot_lt c.grid h.usable (grid_mem h.toPlaced (local_mem hq))) (by
      intro q r hq hr he
      rw [memAddr h hq, memAddr h hr] at he
      exact add_left_cancel (slot_injective c.grid h.usable (grid_mem h.toPlaced (local_mem hq)) (grid_mem h.toPlaced (local_mem hr)) he))
  refine ⟨{ c with grid := { c.grid with buf := buf } }, ?_, rfl, rfl, ⟨h.usable.nonempty, h.usable.fits, ?_⟩, ?_, ?_⟩
  · unfold Hdf.read
    simp only
    rw [fits_not_tooLarge h.toPlaced, shape_fits h.toPlaced]
    simp only [Bool.false_eq_true, if_false]
    rw [hD, (fits_within h.toPlaced).1, (fits_within h.toPlaced).2]
    simp only [Bool.and_self, Bool.not_true, Bool.false_eq_true, if_false]
    rw [h1]
  · have := h.usable.wf
    unfold Grid.WF at this ⊢
    rw [← this]
    exact h2
  · intro p hp
    have hq : ∀ i, 0 ≤ (p - c.localMin) i ∧ (p - c.localMin) i < extent c.localMin c.localMax i := by
      intro i
      have := hp i
      unfold extent
      rw [Pi.sub_apply]
      omega
    have := h3 (p - c.localMin) hq
    rw [memAddr h hq, add_sub_cancel] at this
    show buf[Storage.slot c.grid.order c.grid.range p]? = _
    rw [this]
    congr 2
    funext i
    simp only [Pi.add_apply, Pi.sub_apply]
    ring
  · intro p hp hn
    apply h4
    intro q hq he
    rw [memAddr h hq] at he
    have := slot_injective c.grid h.usable (grid_mem h.toPlaced (local_mem hq)) hp he
    rw [← this] at hn
    exact hn (local_mem hq)

end Schnek.Lemma.Hdf
