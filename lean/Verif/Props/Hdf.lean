import Verif.Lemma.Hdf
import Verif.Props.Mpi
import Verif.Props.Diagnostic

/-!
# What the properties say about HDF5 output

C68 – C71.
-/

namespace Schnek.Props

open Schnek Schnek.Spec Schnek.Hdf Schnek.Lemma.Hdf Schnek.Lemma

variable {n : ℕ} {T : Type}

/-! ## data -/

/-- C68: all processes write, in any order. Afterwards the dataset has the extents of the global domain, and holds the value of each
cell that is in the local part of a process. -/
theorem C68_write (lo hi : Idx (n + 1)) (c0 : Container T n) (cs : List (Container T n)) (fill : T) (hdom : SameDomain lo hi (c0 :: cs))
    (hfits : ∀ c ∈ c0 :: cs, Fits c) (v : Idx (n + 1) → T) (hv : ∀ c ∈ c0 :: cs, Holds v c) :
    ∃ D, writeAll (create c0 fill) (c0 :: cs) = .ok D ∧ D.dims = extent lo hi ∧
      ∀ p, (∃ c ∈ c0 :: cs, InBox c.localMin c.localMax p) → D.cells (p - lo) = v p := by
  have key : ∀ (cs : List (Container T n)) (D : Dataset (n + 1) T), SameDomain lo hi cs → (∀ c ∈ cs, Fits c) → (∀ c ∈ cs, Holds v c) →
      D.dims = extent lo hi → ∃ D', writeAll D cs = .ok D' ∧ D'.dims = extent lo hi ∧
        (∀ p, (∃ c ∈ cs, InBox c.localMin c.localMax p) → D'.cells (p - lo) = v p) ∧
        ∀ p, D.cells (p - lo) = v p → D'.cells (p - lo) = v p := by
    intro cs
    induction cs with
    | nil => intro D _ _ _ hD; exact ⟨D, rfl, hD, by simp, fun _ h => h⟩
    | cons c cs ih =>
      intro D hd hf hv hD
      obtain ⟨e1, e2⟩ := hd c (by simp)
      obtain ⟨D1, h1, h2, h3, h4⟩ := write_spec (hf c (by simp)) D (by rw [hD, e1, e2]) v (hv c (by simp))
      rw [e1] at h3 h4
      obtain ⟨D2, i1, i2, i3, i4⟩ := ih D1 (fun c hc => hd c (by simp [hc])) (fun c hc => hf c (by simp [hc]))
        (fun c hc => hv c (by simp [hc])) (by rw [h2, hD])
      refine ⟨D2, ?_, i2, ?_, ?_⟩
      · rw [writeAll, h1]
        exact i1
      · rintro p ⟨c', hc', hp⟩
        rcases List.mem_cons.mp hc' with rfl | hc'
        · exact i4 p (h3 p hp)
        · exact i3 p ⟨c', hc', hp⟩
      · intro p hp
        by_cases hb : InBox c.localMin c.localMax p
        · exact i4 p (h3 p hb)
        · exact i4 p (by rw [h4 p hb]; exact hp)
  obtain ⟨e1, e2⟩ := hdom c0 (by simp)
  obtain ⟨D, h1, h2, h3, -⟩ := key (c0 :: cs) (create c0 fill) hdom hfits hv (by
    unfold create
    rw [shape_fits (hfits c0 (by simp)).toPlaced, e1, e2])
  exact ⟨D, h1, h2, h3⟩

/-- C68: a process that reads gets the values of the cells of its local part. The other cells of its grid do not change. -/
theorem C68_read (lo hi : Idx (n + 1)) (v : Idx (n + 1) → T) (D : Dataset (n + 1) T) (hD : DatasetHolds v lo hi D) (c : Container T n)
    (hdom : c.globalMin = lo ∧ c.globalMax = hi) (hfits : Fits c) :
    ∃ c', Hdf.read D c = .ok c' ∧ c' = { c with grid := c'.grid } ∧ c'.grid.range = c.grid.range ∧ Usable c'.grid ∧ Holds v c' ∧
      ∀ p, InBox c.grid.range.lo c.grid.range.hi p → ¬ InBox c.localMin c.localMax p → c'.grid.get? p = c.grid.get? p := by
  obtain ⟨c', h1, h2, h3, h4, h5, h6⟩ := read_spec hfits D (by rw [hD.1, hdom.1, hdom.2])
  refine ⟨c', h1, h2, h3, h4, ?_, h6⟩
  intro p hp
  rw [h2] at hp
  rw [h5 p hp, hdom.1, hD.2 p]
  intro i
  have := hp i
  have := hfits.localGlobal i
  rw [hdom.1, hdom.2] at this
  simp only at *
  omega

/-- C68: data that is written by processes whose local parts cover the domain can be read by any other processes, with other local
parts and other grids. -/
theorem C68_roundtrip (lo hi : Idx (n + 1)) (c0 : Container T n) (cs : List (Container T n)) (fill : T)
    (hdom : SameDomain lo hi (c0 :: cs)) (hfits : ∀ c ∈ c0 :: cs, Fits c) (v : Idx (n + 1) → T) (hv : ∀ c ∈ c0 :: cs, Holds v c)
    (hcover : ∀ p, InBox lo hi p → ∃ c ∈ c0 :: cs, InBox c.localMin c.localMax p)
    (c : Container T n) (hc : c.globalMin = lo ∧ c.globalMax = hi) (hf : Fits c) :
    ∃ D c', writeAll (create c0 fill) (c0 :: cs) = .ok D ∧ Hdf.read D c = .ok c' ∧ Holds v c' := by
  obtain ⟨D, h1, h2, h3⟩ := C68_write lo hi c0 cs fill hdom hfits v hv
  obtain ⟨c', h4, -, -, -, h5, -⟩ := C68_read lo hi v D ⟨h2, fun p hp => h3 p (hcover p hp)⟩ c hc hf
  exact ⟨D, c', h1, h4, h5⟩

/-- C68: this applies to the inner domains of the MPI subdivision, if the global domain starts at 0. -/
theorem C68_mpi_partial (S : Mpi.Setup (n + 1)) (rnd : ℚ → ℚ) (hS : Initialised S rnd) (h0 : ∀ i, S.globalLo i = 0)
    (cont : Mpi.Coord S → Container T n)
    (hlocal : ∀ c, (cont c).localMin = (Mpi.bounds S c).innerDomain.lo ∧ (cont c).localMax = (Mpi.bounds S c).innerDomain.hi)
    (hglobal : ∀ c, (cont c).globalMin = S.globalLo ∧ (cont c).globalMax = S.globalHi) (hfits : ∀ c, Fits (cont c))
    (v : Idx (n + 1) → T) (hv : ∀ c, Holds v (cont c)) (fill : T) (first : Mpi.Coord S) (rest : List (Mpi.Coord S))
    (hall : ∀ c, c ∈ first :: rest) :
    ∃ D, writeAll (create (cont first) fill) ((first :: rest).map cont) = .ok D ∧ DatasetHolds v S.globalLo S.globalHi D := by
  obtain ⟨D, h1, h2, h3⟩ := C68_write S.globalLo S.globalHi (cont first) (rest.map cont) fill (by
      rw [← List.map_cons]
      intro x hx
      obtain ⟨c, -, rfl⟩ := List.mem_map.mp hx
      exact hglobal c) (by
      rw [← List.map_cons]
      intro x hx
      obtain ⟨c, -, rfl⟩ := List.mem_map.mp hx
      exact hfits c) v (by
      rw [← List.map_cons]
      intro x hx
      obtain ⟨c, -, rfl⟩ := List.mem_map.mp hx
      exact hv c)
  refine ⟨D, h1, h2, fun p hp => h3 p ?_⟩
  obtain ⟨c, hc, -⟩ := (C23_inner_domains_tile_partial S rnd hS h0).1 p hp
  refine ⟨cont c, ?_, ?_⟩
  · rw [← List.map_cons]
    exact List.mem_map_of_mem (hall c)
  · rw [(hlocal c).1, (hlocal c).2]
    exact hc

/-- C68, without parallel HDF5: the data of a grid that has been written is read back into a grid of the same shape, in any storage order. -/
theorem C68_serial_partial (c c' : Container T n) (fill : T) (hc : Placed c) (hc' : Placed c')
    (hshape : c'.grid.range = c.grid.range ∧ c'.grid.order = c.grid.order) :
    ∃ D c'', writeSerial c fill = .ok D ∧ readSerial D c' = .ok c'' ∧
      c''.grid.range = c'.grid.range ∧ ∀ p, InBox c.grid.range.lo c.grid.range.hi p → c''.grid.get? p = c.grid.get? p := by
  have addr : ∀ q : Idx (n + 1), (∀ i, 0 ≤ q i ∧ q i < extent c.grid.range.lo c.grid.range.hi i) →
      InBox c.grid.range.lo c.grid.range.hi (c.grid.range.lo + q) ∧
      rowMajor (extent c.grid.range.lo c.grid.range.hi) ((fun _ => 0) + q) =
        pre c.grid.range.lo c.grid.range.hi (c.grid.range.lo + q) (n + 1) le_rfl := by
    intro q hq
    constructor
    · intro i
      have := hq i
      unfold extent at this
      rw [Pi.add_apply]
      omega
    · rw [← rowMajor_eq]
      congr 1
      funext i
      simp only [Pi.add_apply, Pi.sub_apply]
      ring
  have hlen : (c.grid.buf.length : ℤ) = vol c.grid.range.lo c.grid.range.hi (n + 1) le_rfl := by
    rw [hc.usable.wf, size_toNat _ (by rw [vol_full]; exact hc.usable.fits), ]
    exact (vol_pos (n + 1) le_rfl (inBoxK_of_inBox (p := c.grid.range.lo) (fun i => ⟨le_rfl, hc.usable.nonempty i⟩) _)).le
  have hlen' : c'.grid.buf.length = c.grid.buf.length := by
    have h1 := hc.usable.wf
    have h2 := hc'.usable.wf
    unfold Grid.WF at h1 h2
    rw [h1, h2, hshape.1]
  have hlt : ∀ q : Idx (n + 1), (∀ i, 0 ≤ q i ∧ q i < extent c.grid.range.lo c.grid.range.hi i) →
      (rowMajor (extent c.grid.range.lo c.grid.range.hi) ((fun _ => 0) + q)).toNat < c.grid.buf.length := by
    intro q hq
    obtain ⟨a1, a2⟩ := addr q hq
    have := pre_bounds (n + 1) le_rfl (inBoxK_of_inBox a1 (n + 1))
    rw [a2]
    omega
  -- value of the element with the number of a position
  obtain ⟨cells, h1, h2, -⟩ := put_spec c.grid.buf (extent c.grid.range.lo c.grid.range.hi) (fun _ => 0) (fun _ => 0)
    (extent c.grid.range.lo c.grid.range.hi) (fun _ => fill)
    (fun q => (c.grid.buf[(rowMajor (extent c.grid.range.lo c.grid.range.hi) ((fun _ => 0) + q)).toNat]?).getD fill) (by
      intro q hq
      rw [List.getElem?_eq_getElem (hlt q hq)]
      rfl)
  obtain ⟨buf, i1, i2, i3, -⟩ := fetch_spec cells (extent c.grid.range.lo c.grid.range.hi) (fun _ => 0) (fun _ => 0)
    (extent c.grid.range.lo c.grid.range.hi) c'.grid.buf (by
      intro q hq
      rw [hlen']
      exact hlt q hq) (by
      intro q r hq hr he
      obtain ⟨a1, a2⟩ := addr q hq
      obtain ⟨b1, b2⟩ := addr r hr
      have ha := pre_bounds (n + 1) le_rfl (inBoxK_of_inBox a1 (n + 1))
      have hb := pre_bounds (n + 1) le_rfl (inBoxK_of_inBox b1 (n + 1))
      rw [a2, b2] at he
      exact add_left_cancel (pre_injective a1 b1 (by omega)))
  refine ⟨⟨extent c.grid.range.lo c.grid.range.hi, cells⟩, { c' with grid := { c'.grid with buf := buf } }, ?_, ?_, rfl, ?_⟩
  · unfold writeSerial
    simp only
    rw [fits_not_tooLarge hc, shape_fits hc]
    simp only [Bool.false_eq_true, if_false]
    rw [h1]
  · unfold readSerial
    rw [fits_not_tooLarge hc']
    simp only [Bool.false_eq_true, if_false]
    rw [i1]
  · have hbuf : ∀ j < c.grid.buf.length, buf[j]? = c.grid.buf[j]? := by
      intro j hj
      obtain ⟨p, hp, hpa⟩ := addr_surjective .c c.grid.range hc.usable.nonempty j (by omega) (by omega)
      have hq : ∀ i, 0 ≤ (p - c.grid.range.lo) i ∧ (p - c.grid.range.lo) i < extent c.grid.range.lo c.grid.range.hi i := by
        intro i
        have := hp i
        unfold extent
        rw [Pi.sub_apply]
        omega
      have hj' : (rowMajor (extent c.grid.range.lo c.grid.range.hi) ((fun _ => 0) + (p - c.grid.range.lo))).toNat = j := by
        rw [(addr _ hq).2, add_sub_cancel]
        simp only [Lemma.addr] at hpa
        omega
      have e1 := i3 _ hq
      have e2 := h2 _ hq
      rw [hj'] at e1 e2
      rw [e1, e2, List.getElem?_eq_getElem hj]
      rfl
    intro p hp
    show buf[Storage.slot c'.grid.order c'.grid.range p]? = c.grid.buf[Storage.slot c.grid.order c.grid.range p]?
    rw [hshape.1, hshape.2]
    exact hbuf _ (slot_lt c.grid hc.usable hp)

/-! ## the test for local parts that do not fit -/

/-- C69: if the local part does not start before the global domain, the error is reported exactly if the local part ends after the end of
the global domain. -/
theorem C69_check_partial (c : Container T n)
    (h : ∀ i, c.globalMin i ≤ c.localMin i ∧ c.localMin i ≤ c.localMax i + 1 ∧ c.globalMin i ≤ c.globalMax i + 1)
    (hint : ∀ i, IsInt (c.globalMin i) ∧ IsInt (c.globalMax i) ∧ IsInt (c.localMin i) ∧ IsInt (c.localMax i)) :
    tooLarge (shape c) = true ↔ ∃ i, c.globalMax i < c.localMax i := by
  unfold tooLarge
  rw [decide_eq_true_iff]
  refine exists_congr fun i => ?_
  have h1 := h i
  have h2 := hint i
  unfold IsInt at h2
  simp only [shape]
  rw [hsize_eq (x := 1 + c.globalMax i - c.globalMin i) (by omega) (by omega),
    hsize_eq (x := c.localMax i - c.localMin i + 1) (by omega) (by omega),
    hsize_eq (x := c.localMin i - c.globalMin i) (by omega) (by omega), hsize_eq (by omega) (by omega)]
  omega

/-! ## names of datasets -/

theorem lookup_append_of_mem {α β : Type} [BEq α] [LawfulBEq α] (l l' : List (α × β)) (a : α) (b : β) (h : l.lookup a = some b) :
    (l ++ l').lookup a = some b := by
  induction l with
  | nil => simp at h
  | cons x l ih =>
    obtain ⟨k, w⟩ := x
    rw [List.cons_append, List.lookup_cons]
    rw [List.lookup_cons] at h
    split
    · rename_i hk
      rw [hk] at h
      exact h
    · rename_i hk
      rw [hk] at h
      exact ih h

theorem lookup_append_new {α β : Type} [BEq α] [LawfulBEq α] (l : List (α × β)) (a : α) (b : β) (h : a ∉ l.map Prod.fst) :
    (l ++ [(a, b)]).lookup a = some b := by
  induction l with
  | nil => simp
  | cons x l ih =>
    obtain ⟨k, w⟩ := x
    simp only [List.map_cons, List.mem_cons, not_or] at h
    rw [List.cons_append, List.lookup_cons]
    split
    · rename_i hk
      exact absurd (LawfulBEq.eq_of_beq hk) h.1
    · exact ih h.2

theorem writeCalls_extends {α : Type} (l : List (NameCall α)) : ∀ (s s' : Names) (F F' : File α), writeCalls s F l = some (s', F') →
    ∃ E, F' = F ++ E := by
  induction l with
  | nil =>
    intro s s' F F' h
    simp only [writeCalls, Option.some.injEq, Prod.mk.injEq] at h
    exact ⟨[], by rw [h.2, List.append_nil]⟩
  | cons c l ih =>
    intro s s' F F' h
    cases c with
    | setBlockName name => exact ih _ _ _ _ h
    | transfer a =>
      rw [writeCalls] at h
      split at h
      · simp at h
      · obtain ⟨E, hE⟩ := ih _ _ _ _ h
        exact ⟨_ :: E, by rw [hE, List.append_assoc]; rfl⟩

/-- C70: data that has been written successfully is read back, in the same order, by the same calls on an input stream. -/
theorem C70_read_back {α : Type} (l : List (NameCall α)) (s s' : Names) (F F' : File α) (h : writeCalls s F l = some (s', F')) :
    readCalls F' s (l.map NameCall.forReading) = some (dataOf l) := by
  induction l generalizing s F with
  | nil => rfl
  | cons c l ih =>
    cases c with
    | setBlockName name => exact ih _ _ h
    | transfer a =>
      rw [writeCalls] at h
      split at h
      · simp at h
      · rename_i hnew
        obtain ⟨E, hE⟩ := writeCalls_extends l _ _ _ _ h
        have h1 : F'.lookup s.next.1 = some a := by
          rw [hE]
          exact lookup_append_of_mem _ _ _ _ (lookup_append_new F _ a hnew)
        show (do
          let a ← F'.lookup s.next.1
          let r ← readCalls F' s.next.2 (l.map NameCall.forReading)
          return a :: r) = some (a :: dataOf l)
        rw [h1, ih _ _ h]
        rfl

theorem decimal_ne_nil (i : ℤ) : Diagnostic.decimal i ≠ [] := by
  unfold Diagnostic.decimal
  split
  · simp
  · unfold Diagnostic.decimalNat
    split
    · simp
    · rename_i h
      simp only [ne_eq, List.map_eq_nil_iff, List.reverse_eq_nil_iff, Nat.digits_eq_nil_iff_eq_zero]
      exact h

theorem series {α : Type} (b : List Char) : ∀ (as : List α) (c : ℤ) (F : File α), 0 ≤ c →
    (∀ k, c ≤ k → b ++ Diagnostic.decimal k ∉ F.map Prod.fst) →
    ∃ s' E, writeCalls ⟨b, c⟩ F (as.map NameCall.transfer) = some (s', F ++ E) ∧ E.map Prod.snd = as := by
  intro as
  induction as with
  | nil => intro c F _ _; exact ⟨_, [], by rw [List.append_nil]; rfl, rfl⟩
  | cons a as ih =>
    intro c F hc hF
    have hnext : (⟨b, c⟩ : Names).next = (b ++ Diagnostic.decimal c, ⟨b, c + 1⟩) := by
      unfold Names.next
      rw [if_neg (by simp only; omega)]
    obtain ⟨s', E, h1, h2⟩ := ih (c + 1) (F ++ [(b ++ Diagnostic.decimal c, a)]) (by omega) (by
      intro k hk
      rw [List.map_append, List.mem_append, not_or]
      refine ⟨hF k (by omega), ?_⟩
      simp only [List.map_cons, List.map_nil, List.mem_singleton, List.append_right_inj]
      intro h
      have := Diag.decimal_inj h
      omega)
    refine ⟨s', (b ++ Diagnostic.decimal c, a) :: E, ?_, by rw [List.map_cons, h2]⟩
    rw [List.map_cons, writeCalls, hnext]
    simp only
    rw [if_neg (hF c le_rfl), h1, List.append_assoc]
    rfl

/-- C70: any number of datasets can be written into a new file one after the other, with or without setting a name first. -/
theorem C70_series_partial {α : Type} (s : Names) (as : List α) (b : List Char) :
    (∃ s' F, writeCalls s.open [] (as.map NameCall.transfer) = some (s', F) ∧ F.map Prod.snd = as) ∧
    ∃ s' F, writeCalls s [] (.setBlockName b :: as.map NameCall.transfer) = some (s', F) ∧ F.map Prod.snd = as := by
  constructor
  · obtain ⟨s', E, h1, h2⟩ := series s.blockname as 0 [] le_rfl (by simp)
    exact ⟨s', E, h1, h2⟩
  · cases as with
    | nil => exact ⟨_, [], rfl, rfl⟩
    | cons a as =>
      obtain ⟨s', E, h1, h2⟩ := series b as 1 [(b, a)] (by omega) (by
        intro k _
        simp only [List.map_cons, List.map_nil, List.mem_singleton]
        intro h
        have : (b ++ Diagnostic.decimal k).length = b.length := by rw [h]
        rw [List.length_append] at this
        exact decimal_ne_nil k (List.eq_nil_of_length_eq_zero (by omega)))
      exact ⟨s', (b, a) :: E, h1, by rw [List.map_cons, h2]⟩

/-! ## files -/

theorem lookup_mem {w : Files} {s : ℕ} {o : Option ℕ} (h : w.stream s = some o) : (s, o) ∈ w.streams := by
  unfold Files.stream at h
  generalize w.streams = l at h
  induction l with
  | nil => simp at h
  | cons x l ih =>
    obtain ⟨k, v⟩ := x
    rw [List.lookup_cons] at h
    split at h
    · rename_i hk
      have := LawfulBEq.eq_of_beq hk
      have h : v = o := by simpa using h
      rw [this, h]
      simp
    · exact List.mem_cons_of_mem _ (ih h)

theorem lookup_none {w : Files} {s : ℕ} (h : w.stream s = none) : ∀ x ∈ w.streams, x.1 ≠ s := by
  unfold Files.stream at h
  intro x hx he
  rw [List.lookup_eq_none_iff] at h
  have := h x hx
  simp [he] at this

theorem pairwise_mem {l : List (ℕ × Option ℕ)} (h : l.Pairwise fun s t => s.1 ≠ t.1 ∧ ∀ id, s.2 = some id → t.2 ≠ some id)
    {x y : ℕ × Option ℕ} (hx : x ∈ l) (hy : y ∈ l) (hne : x ≠ y) : x.1 ≠ y.1 ∧ ∀ id, x.2 = some id → y.2 ≠ some id := by
  induction l with
  | nil => simp at hx
  | cons a l ih =>
    rw [List.pairwise_cons] at h
    rcases List.mem_cons.mp hx with hxa | hxl
    · rcases List.mem_cons.mp hy with hya | hyl
      · exact absurd (hxa.trans hya.symm) hne
      · rw [hxa]
        exact h.1 y hyl
    · rcases List.mem_cons.mp hy with hya | hyl
      · have := h.1 x hxl
        rw [hya]
        exact ⟨this.1.symm, fun id h1 h2 => this.2 id h2 h1⟩
      · exact ih h.2 hxl hyl

/-- a stream's file is closed -/
theorem tidy_close {w : Files} {s : ℕ} {o : Option ℕ} (hw : Tidy w) (h : w.stream s = some o) :
    ∃ w', w.closeStream s = some w' ∧ Tidy w' ∧ (∀ x ∈ w'.streams, x.1 = s → x.2 = none) := by
  unfold Files.closeStream
  rw [h]
  have hmem := lookup_mem h
  have huniq : ∀ x ∈ w.streams, x.1 = s → x = (s, o) := by
    intro x hx hxs
    by_contra hne
    exact (pairwise_mem hw.apart hx hmem hne).1 hxs
  cases o with
  | none =>
    refine ⟨w, rfl, hw, ?_⟩
    intro x hx hxs
    rw [huniq x hx hxs]
  | some id =>
    have hid := hw.isOpen _ hmem id rfl
    simp only
    unfold Files.fclose
    rw [if_pos hid]
    refine ⟨_, rfl, ⟨?_, ?_, ?_, ?_⟩, ?_⟩
    · intro j hj
      simp only [Files.setStream] at hj ⊢
      rw [hw.ids.2.mem_erase_iff] at hj
      obtain ⟨x, hx, hxj⟩ := hw.owned j hj.2
      refine ⟨x, ?_, hxj⟩
      rw [List.mem_map]
      refine ⟨x, hx, ?_⟩
      rw [if_neg]
      intro hxs
      rw [huniq x hx hxs] at hxj
      simp only [Option.some.injEq] at hxj
      exact hj.1 hxj.symm
    · intro x hx j hj
      simp only [Files.setStream, List.mem_map] at hx ⊢
      obtain ⟨y, hy, rfl⟩ := hx
      by_cases hys : y.1 = s
      · rw [if_pos hys] at hj
        simp at hj
      · rw [if_neg hys] at hj
        rw [hw.ids.2.mem_erase_iff]
        refine ⟨?_, hw.isOpen y hy j hj⟩
        rintro rfl
        have hne : y ≠ (s, some j) := by
          rintro rfl
          exact hys rfl
        exact (pairwise_mem hw.apart hy hmem hne).2
          j hj rfl
    · simp only [Files.setStream]
      rw [List.pairwise_map]
      refine hw.apart.imp ?_
      intro x y hxy
      constructor
      · split <;> split
        · rename_i h1 h2
          exact absurd (h1.trans h2.symm) hxy.1
        · rename_i h1 h2
          exact fun h => h2 h.symm
        · rename_i h1 h2
          exact h1
        · exact hxy.1
      · intro j hj hj'
        split at hj
        · simp at hj
        · split at hj'
          · simp at hj'
          · exact hxy.2 j hj hj'
    · simp only [Files.setStream]
      exact ⟨fun j hj => hw.ids.1 j (List.mem_of_mem_erase hj), hw.ids.2.erase id⟩
    · intro x hx hxs
      simp only [Files.setStream, List.mem_map] at hx
      obtain ⟨y, hy, rfl⟩ := hx
      by_cases hys : y.1 = s
      · rw [if_pos hys]
      · rw [if_neg hys] at hxs
        exact absurd hxs hys

theorem tidy_open {w : Files} {s : ℕ} (hw : Tidy w) (hs : ∃ x ∈ w.streams, x.1 = s) (h : ∀ x ∈ w.streams, x.1 = s → x.2 = none) :
    Tidy (w.fopen s) := by
  unfold Files.fopen Files.setStream
  refine ⟨?_, ?_, ?_, ?_⟩
  · intro j hj
    simp only [List.mem_cons] at hj
    rcases hj with rfl | hj
    · obtain ⟨x, hx, hxs⟩ := hs
      refine ⟨(s, some w.fresh), ?_, rfl⟩
      rw [List.mem_map]
      exact ⟨x, hx, if_pos hxs⟩
    · obtain ⟨x, hx, hxj⟩ := hw.owned j hj
      refine ⟨x, ?_, hxj⟩
      rw [List.mem_map]
      refine ⟨x, hx, if_neg ?_⟩
      intro hxs
      rw [h x hx hxs] at hxj
      simp at hxj
  · intro x hx j hj
    simp only [List.mem_map] at hx
    obtain ⟨y, hy, rfl⟩ := hx
    simp only [List.mem_cons]
    split at hj
    · simp only [Option.some.injEq] at hj
      exact Or.inl hj.symm
    · exact Or.inr (hw.isOpen y hy j hj)
  · simp only
    rw [List.pairwise_map]
    refine List.Pairwise.imp_of_mem ?_ hw.apart
    intro x y hx hy hxy
    constructor
    · split <;> split
      · rename_i h1 h2
        exact absurd (h1.trans h2.symm) hxy.1
      · rename_i h1 h2
        exact fun h => h2 h.symm
      · rename_i h1 h2
        exact h1
      · exact hxy.1
    · intro j hj hj'
      split at hj
      · rename_i h1
        split at hj'
        · rename_i h2
          exact hxy.1 (h1.trans h2.symm)
        · simp only [Option.some.injEq] at hj
          have := hw.ids.1 _ (hw.isOpen y hy j hj')
          omega
      · split at hj'
        · simp only [Option.some.injEq] at hj'
          have := hw.ids.1 _ (hw.isOpen x hx j hj)
          omega
        · exact hxy.2 j hj hj'
  · constructor
    · intro j hj
      simp only [List.mem_cons] at hj
      rcases hj with rfl | hj
      · exact Nat.lt_succ_self _
      · exact Nat.lt_succ_of_lt (hw.ids.1 j hj)
    · rw [List.nodup_cons]
      exact ⟨fun hj => lt_irrefl _ (hw.ids.1 _ hj), hw.ids.2⟩

theorem closeStream_keys {w w' : Files} {s : ℕ} (h : w.closeStream s = some w') : w'.streams.map Prod.fst = w.streams.map Prod.fst := by
  unfold Files.closeStream at h
  split at h
  · simp at h
  · simp only [Option.some.injEq] at h
    rw [h]
  · unfold Files.fclose at h
    split at h
    · simp only [Option.map_some, Option.some.injEq] at h
      rw [← h]
      simp only [Files.setStream, List.map_map]
      apply List.map_congr_left
      intro x _
      simp only [Function.comp]
      split
      · rename_i hx
        exact hx.symm
      · rfl
    · simp at h

theorem tidy_call (w : Files) (c : FileCall) (hw : Tidy w) (hc : LegalCall w c) : ∃ w', w.call c = some w' ∧ Tidy w' := by
  cases c with
  | construct s =>
    have hc : w.stream s = none := hc
    refine ⟨{ w with streams := (s, none) :: w.streams }, by simp [Files.call, hc], ⟨?_, ?_, ?_, hw.ids⟩⟩
    · intro id hid
      obtain ⟨x, hx, h⟩ := hw.owned id hid
      exact ⟨x, List.mem_cons_of_mem _ hx, h⟩
    · intro x hx id h
      rcases List.mem_cons.mp hx with rfl | hx
      · simp at h
      · exact hw.isOpen x hx id h
    · rw [List.pairwise_cons]
      refine ⟨?_, hw.apart⟩
      intro x hx
      exact ⟨(lookup_none hc x hx).symm, fun id h => by simp at h⟩
  | openInput s =>
    obtain ⟨o, ho⟩ := Option.ne_none_iff_exists'.mp hc
    obtain ⟨w', h1, h2, h3⟩ := tidy_close hw ho
    refine ⟨w'.fopen s, by simp [Files.call, h1], tidy_open h2 ?_ h3⟩
    have hk := closeStream_keys h1
    have : s ∈ w'.streams.map Prod.fst := by
      rw [hk]
      exact List.mem_map_of_mem (lookup_mem ho)
    obtain ⟨x, hx, rfl⟩ := List.mem_map.mp this
    exact ⟨x, hx, rfl⟩
  | openOutput s =>
    have hc : w.stream s = some none := hc
    refine ⟨w.fopen s, by simp [Files.call, hc], tidy_open hw ⟨_, lookup_mem hc, rfl⟩ ?_⟩
    obtain ⟨w', h1, h2, h3⟩ := tidy_close hw hc
    have : w' = w := by
      unfold Files.closeStream at h1
      rw [hc] at h1
      simpa using h1.symm
    rw [this] at h3
    exact h3
  | close s =>
    obtain ⟨o, ho⟩ := Option.ne_none_iff_exists'.mp hc
    obtain ⟨w', h1, h2, h3⟩ := tidy_close hw ho
    exact ⟨w', h1, h2⟩
  | destroy s =>
    obtain ⟨o, ho⟩ := Option.ne_none_iff_exists'.mp hc
    obtain ⟨w', h1, h2, h3⟩ := tidy_close hw ho
    refine ⟨{ w' with streams := w'.streams.filter fun x => x.1 ≠ s }, by simp [Files.call, h1], ⟨?_, ?_, ?_, h2.ids⟩⟩
    · intro id hid
      obtain ⟨x, hx, h⟩ := h2.owned id hid
      refine ⟨x, ?_, h⟩
      rw [List.mem_filter]
      refine ⟨hx, ?_⟩
      rw [decide_eq_true_iff]
      intro hxs
      rw [h3 x hx hxs] at h
      simp at h
    · intro x hx
      exact h2.isOpen x (List.mem_of_mem_filter hx)
    · exact h2.apart.filter _
  | copy s s' => exact absurd hc id
  | assign s s' => exact absurd hc id

/-- C71: streams that are not copied, and that are closed before they are opened again for output, close their files exactly once, and
all open files belong to streams. When no streams are left, no file is open. -/
theorem C71_files_partial (l : List FileCall) (hl : Legal Files.init l) :
    ∃ w, Files.init.calls l = some w ∧ Tidy w ∧ (w.streams = [] → w.isOpen = []) := by
  have key : ∀ (l : List FileCall) (w : Files), Tidy w → Legal w l → ∃ w', w.calls l = some w' ∧ Tidy w' := by
    intro l
    induction l with
    | nil => exact fun w hw _ => ⟨w, rfl, hw⟩
    | cons c l ih =>
      intro w hw hl
      obtain ⟨w1, h1, h2⟩ := tidy_call w c hw hl.1
      obtain ⟨w2, h3, h4⟩ := ih w1 h2 (hl.2 w1 h1)
      refine ⟨w2, ?_, h4⟩
      unfold Files.calls at h3 ⊢
      rw [List.foldlM_cons, h1]
      exact h3
  obtain ⟨w, h1, h2⟩ := key l Files.init ⟨by simp [Files.init], by simp [Files.init], by simp [Files.init], by simp [Files.init]⟩ hl
  refine ⟨w, h1, h2, ?_⟩
  intro h
  rw [List.eq_nil_iff_forall_not_mem]
  intro id hid
  obtain ⟨s, hs, -⟩ := h2.owned id hid
  rw [h] at hs
  simp at hs

/-! ## examples -/

/-- a field of four cells, from `lo` to `hi` with one ghost cell on each side, on a process that owns the cells from `lo` to `hi`; the value
of cell `p` is 10 `p` -/
def oneCell (lo hi : ℤ) : Container ℤ 0 :=
  ⟨⟨.c, ⟨![lo - 1], ![hi + 1]⟩, (List.range (hi - lo + 3).toNat).map fun k : ℕ => 10 * (lo - 1 + (k : ℤ))⟩, ![0], ![3], ![lo], ![hi]⟩

/-- the hypotheses of C68 are met by two processes -/
example : Fits (oneCell 0 1) ∧ Fits (oneCell 2 3) ∧ Holds (fun p => 10 * p 0) (oneCell 0 1) ∧ Holds (fun p => 10 * p 0) (oneCell 2 3) ∧
    SameDomain ![0] ![3] [oneCell 0 1, oneCell 2 3] ∧
    ∀ p, InBox ![0] ![3] p → ∃ c ∈ [oneCell 0 1, oneCell 2 3], InBox c.localMin c.localMax p := by
  have hone : ∀ lo hi : ℤ, (∀ p : Idx 1, InBox ![lo] ![hi] p ↔ lo ≤ p 0 ∧ p 0 ≤ hi) := by
    intro lo hi p
    simp [InBox]
  have hholds : ∀ c : Container ℤ 0, (∀ x : ℤ, c.localMin 0 ≤ x → x ≤ c.localMax 0 → c.grid.get? ![x] = some (10 * x)) →
      Holds (fun p => 10 * p 0) c := by
    intro c h p hp
    have h1 : p = ![p 0] := by
      funext i
      fin_cases i
      rfl
    rw [h1]
    exact h (p 0) (hp 0).1 (hp 0).2
  refine ⟨?_, ?_, ?_, ?_, ?_, ?_⟩
  · exact { usable := ⟨by decide, by decide, by unfold Grid.WF; decide⟩, localGlobal := by decide, localGrid := by decide, int := by
              unfold IsInt; decide, order := rfl }
  · exact { usable := ⟨by decide, by decide, by unfold Grid.WF; decide⟩, localGlobal := by decide, localGrid := by decide, int := by
              unfold IsInt; decide, order := rfl }
  · apply hholds
    intro x h1 h2
    have h1 : 0 ≤ x := h1
    have h2 : x ≤ 1 := h2
    interval_cases x <;> decide
  · apply hholds
    intro x h1 h2
    have h1 : 2 ≤ x := h1
    have h2 : x ≤ 3 := h2
    interval_cases x <;> decide
  · intro c hc
    simp only [List.mem_cons, List.not_mem_nil, or_false] at hc
    rcases hc with rfl | rfl <;> exact ⟨rfl, rfl⟩
  · intro p hp
    rw [hone] at hp
    by_cases h : p 0 ≤ 1
    · exact ⟨oneCell 0 1, by simp, (hone 0 1 p).mpr ⟨hp.1, h⟩⟩
    · exact ⟨oneCell 2 3, by simp, (hone 2 3 p).mpr ⟨by omega, hp.2⟩⟩

/-- the extents and the first elements of a dataset -/
def firstCells {n : ℕ} (o : Outcome (Dataset n ℤ)) (ps : List (Idx n)) : Option (List ℤ × List ℤ) :=
  match o with
  | .ok D => some ((List.finRange n).map D.dims, ps.map D.cells)
  | _ => none

/-- and so the dataset is 0, 10, 20, 30 -/
example : firstCells (writeAll (create (oneCell 0 1) 7) [oneCell 0 1, oneCell 2 3]) [![0], ![1], ![2], ![3]] = some ([4], [0, 10, 20, 30]) := by
  decide +kernel

/-- C68 is false without parallel HDF5: the dataset of a field contains the ghost cells, its extents are not those of the domain, and
the first element is not the value of the first cell. -/
theorem C68_violated_ghost_cells : Placed (oneCell 0 3) ∧ Holds (fun p => 10 * p 0) (oneCell 0 3) ∧
    firstCells (writeSerial (oneCell 0 3) 7) [![0], ![1], ![2], ![3]] = some ([6], [-10, 0, 10, 20]) := by
  refine ⟨⟨⟨by decide, by decide, by unfold Grid.WF; decide⟩, by decide, by decide, by unfold IsInt; decide⟩, ?_, by decide +kernel⟩
  intro p hp
  have h1 : p = ![p 0] := by
    funext i
    fin_cases i
    rfl
  have h2 : 0 ≤ p 0 := (hp 0).1
  have h3 : p 0 ≤ 3 := (hp 0).2
  rw [h1]
  generalize p 0 = x at h2 h3
  interval_cases x <;> decide

/-- a grid with 2 times 3 cells in Fortran order; the value of cell `(i,j)` is `10 i + j` -/
def fortranGrid : Container ℤ 1 := ⟨⟨.fortran, ⟨![0, 0], ![1, 2]⟩, [0, 10, 1, 11, 2, 12]⟩, ![0, 0], ![1, 2], ![0, 0], ![1, 2]⟩

/-- C68 is false for grids in Fortran order, with and without parallel HDF5: the element (0,1) of the dataset is the value of cell (1,0). -/
theorem C68_violated_fortran : Placed fortranGrid ∧ fortranGrid.grid.get? ![0, 1] = some 1 ∧ fortranGrid.grid.get? ![1, 0] = some 10 ∧
    firstCells (writeAll (create fortranGrid 7) [fortranGrid]) [![0, 1]] = some ([2, 3], [10]) ∧
    firstCells (writeSerial fortranGrid 7) [![0, 1]] = some ([2, 3], [10]) := by
  refine ⟨⟨⟨by decide, by decide, by unfold Grid.WF; decide⟩, by decide, by decide, by unfold IsInt; decide⟩, by decide, by decide, by decide +kernel,
    by decide +kernel⟩

/-- C68 is false without parallel HDF5: a dataset that is larger than the grid is read without a test, and overwrites other memory. -/
theorem C68_violated_size : ∃ D, writeSerial (oneCell 0 3) 7 = .ok D ∧
    readSerial D ⟨⟨.c, ⟨![0], ![3]⟩, [0, 0, 0, 0]⟩, ![0], ![3], ![0], ![3]⟩ = .ub := by
  have : (match writeSerial (oneCell 0 3) 7 with
      | .ok D => (match readSerial D (⟨⟨.c, ⟨![0], ![3]⟩, [0, 0, 0, 0]⟩, ![0], ![3], ![0], ![3]⟩ : Container ℤ 0) with
        | .ub => true
        | _ => false)
      | _ => false) = true := by decide +kernel
  rcases h : writeSerial (oneCell 0 3) 7 with _ | _ | _ | D
  · rw [h] at this; simp at this
  · rw [h] at this; simp at this
  · rw [h] at this; simp at this
  · refine ⟨D, rfl, ?_⟩
    rw [h] at this
    simp only at this
    split at this
    · assumption
    · simp at this

/-- C69 is false if the local part begins before the global domain: no error is reported for cells -1 to 1 of the domain 0 to 3. (The
call of the HDF5 library fails later.) -/
theorem C69_violated_before : tooLarge (shape (⟨⟨.c, ⟨![-1], ![1]⟩, [0, 0, 0]⟩, ![0], ![3], ![-1], ![1]⟩ : Container ℤ 0)) = false := by
  decide +kernel

/-- the hypotheses of C69 are met, in a case with and in a case without an error -/
example : tooLarge (shape (oneCell 2 3)) = false ∧ tooLarge (shape (oneCell 2 4)) = true := by
  constructor <;> decide +kernel

/-- C70 is false: the same name cannot be set twice, and a name may collide with one that was made from another name and a number. -/
theorem C70_violated_collision :
    (writeCalls Names.new.open [] [.setBlockName "a".toList, .transfer 1, .setBlockName "a".toList, .transfer 2]).isNone = true ∧
    (writeCalls Names.new.open [] [.setBlockName "a".toList, .transfer 1, .transfer 2, .setBlockName "a1".toList, .transfer 3]).isNone =
      true := by
  constructor <;> decide +kernel

/-- the calls of the virtual functions of an `HDFGridDiagnostic`, as calls of its stream while the file is open: hdfdiagnostic.t 387-405 -/
def hdfCalls : List Diagnostic.Call → List (NameCall Unit)
  | [] => []
  | .write :: l => diagnosticWrite "data".toList () ++ hdfCalls l
  | _ :: l => hdfCalls l

/-- C70 is false: an `HDFGridDiagnostic` that appends sets the same name for each output, the second output fails. -/
theorem C70_violated_append : ∃ calls, callsFor ⟨outFile true false, 2⟩ true 0 [0, 1, 2] = some calls ∧
    calls = [.open "out#t".toList, .write, .write] ∧ (writeCalls Names.new.open [] (hdfCalls calls)).isNone = true := by
  refine ⟨_, ?_, rfl, ?_⟩
  · decide +kernel
  · decide +kernel

/-- the names of a series -/
example : ((writeCalls Names.new [] [.setBlockName "a".toList, .transfer 5, .transfer 6, .transfer 7]).map fun x => x.2) =
    some [("a".toList, 5), ("a1".toList, 6), ("a2".toList, 7)] := by decide +kernel

/-- C71 is false for streams that are copied: the file is closed with the copy, and then again with the original. -/
theorem C71_violated_copy : Files.init.calls [.construct 0, .openOutput 0, .copy 1 0, .destroy 1, .destroy 0] = none ∧
    ∃ w, Files.init.calls [.construct 0, .openOutput 0, .copy 1 0, .destroy 1] = some w ∧ w.stream 0 = some (some 0) ∧ w.isOpen = [] :=
  ⟨rfl, _, rfl, rfl, rfl⟩

/-- C71 is false for output streams that are opened twice: the first file is never closed. -/
theorem C71_violated_open_twice : ∃ w, Files.init.calls [.construct 0, .openOutput 0, .openOutput 0, .destroy 0] = some w ∧
    w.streams = [] ∧ w.isOpen = [0] := ⟨_, rfl, rfl, rfl⟩

/-- C71 is false for assignment: the file of the stream on the left is never closed, and the other one is closed twice. -/
theorem C71_violated_assign :
    Files.init.calls [.construct 0, .construct 1, .openInput 0, .openInput 1, .assign 0 1, .destroy 1, .destroy 0] = none ∧
    ∃ w, Files.init.calls [.construct 0, .construct 1, .openInput 0, .openInput 1, .assign 0 1, .destroy 1] = some w ∧ w.isOpen = [0] ∧
      w.stream 0 = some (some 1) := ⟨rfl, _, rfl, rfl, rfl⟩

/-- the hypotheses of C71 are met -/
example : Legal Files.init [.construct 0, .openOutput 0, .close 0, .openOutput 0, .construct 1, .openInput 1, .openInput 1, .destroy 0,
    .destroy 1] := by
  unfold Legal
  refine ⟨rfl, fun w h => ?_⟩
  obtain rfl := (Option.some.inj h : _ = w)
  refine ⟨rfl, fun w h => ?_⟩
  obtain rfl := (Option.some.inj h : _ = w)
  refine ⟨by show _ ≠ none; decide, fun w h => ?_⟩
  obtain rfl := (Option.some.inj h : _ = w)
  refine ⟨rfl, fun w h => ?_⟩
  obtain rfl := (Option.some.inj h : _ = w)
  refine ⟨rfl, fun w h => ?_⟩
  obtain rfl := (Option.some.inj h : _ = w)
  refine ⟨by show _ ≠ none; decide, fun w h => ?_⟩
  obtain rfl := (Option.some.inj h : _ = w)
  refine ⟨by show _ ≠ none; decide, fun w h => ?_⟩
  obtain rfl := (Option.some.inj h : _ = w)
  refine ⟨by show _ ≠ none; decide, fun w h => ?_⟩
  obtain rfl := (Option.some.inj h : _ = w)
  exact ⟨by show _ ≠ none; decide, fun w h => trivial⟩

end Schnek.Props
