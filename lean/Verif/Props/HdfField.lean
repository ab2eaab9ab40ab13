import Verif.Lemma.HdfField
import Verif.Props.Hdf

/-!
# C150: grid diagnostics write, and grid readers fill, the field of the program
-/

namespace Schnek.Props

open Schnek Schnek.Alloc Schnek.Hdf Schnek.HdfField Schnek.Spec Schnek.Lemma.HdfField Function

variable {T : Type} {n : ℕ}

/-- C150. A grid member that has been constructed is still as it was then after anything that the program does with other grids. -/
theorem C150_members (o : Order) (lazy : Bool) (h h' : Heap n) (hr : Reach o lazy h) (a : ℕ) :
    (step o lazy h (.construct a) = .ok h' → Fresh h' a) ∧
    (∀ op, AssignOk lazy h op → step o lazy h op = .ok h' → ¬ Mentions op a → Fresh h a → Fresh h' a) :=
  ⟨fresh_construct hr, fun _ hok hs hm hf => fresh_step hr hok hs hm hf⟩

/-- C150. Initialising a diagnostic or a reader succeeds if there is a field. The part of the domain that belongs to this process is the inner part of the field. -/
theorem C150_init (o : Order) (lazy : Bool) (W : World T n) (hr : Reach o lazy W.heap) (f copy grid t : ℕ) (r : Range (n + 1)) (hf : HasRange W f r)
    (h1 : Fresh W.heap copy) (h2 : Fresh W.heap grid) (hne : copy ≠ grid ∧ f ≠ copy ∧ f ≠ grid) (ht : W.heap.objs t = none) (ghost : ℤ)
    (lo hi : Idx (n + 1)) :
    ∃ W' d, W.init o lazy f copy grid t ghost lo hi = some (W', d) ∧ Diagnosed o lazy f ghost lo hi W d W' ∧ HasRange W' f r ∧
      (Sized o W f r → ∀ p, InBox r.lo r.hi p → W'.get o f p = W.get o f p) ∧ ∀ p, InBox d.localMin d.localMax p ↔ InnerPart r ghost p := by
  obtain ⟨ob, hob, rfl⟩ := hf
  obtain ⟨h', ob', e1, e2, e3, e4, e5⟩ := init_spec (o := o) (lazy := lazy) (W := W) hr (by rw [hob]; simp) h1 h2 hne.1 hne.2.1 hne.2.2 ht ghost lo hi
  rw [hob, Option.some.injEq] at e1
  subst e1
  refine ⟨_, _, e2, ⟨hr, by rw [hob]; simp, ⟨h1, h2, hne.1, hne.2.1, hne.2.2⟩, t, _, ht, e2, .refl⟩, ⟨ob, e5.trans hob, rfl⟩, ?_, fun p => Iff.rfl⟩
  intro hs p hp
  obtain ⟨b, ob1, rec, a1, -, a3, a4, -, -, a7⟩ := grid_spec hr hs
  rw [hob, Option.some.injEq] at a1
  subst a1
  obtain ⟨a8, a9⟩ := a7 p hp
  obtain ⟨b', rec', c1, c2, c3⟩ := access_eq (reach_inv e3) (e5.trans hob) (by omega) hs.fits hp
  have s1 := (reach_inv hr).shape f ob rec hob a3
  have s2 := (reach_inv e3).shape f ob rec' (e5.trans hob) c1
  rw [a4] at s1
  rw [c2] at s2
  obtain ⟨-, -, -, -, d1, -⟩ := s1
  obtain ⟨-, -, -, -, d2, -⟩ := s2
  rw [d1] at d2
  obtain rfl : b = b' := by simpa using d2
  unfold World.get
  rw [a8]
  simp only
  rw [c3]

/-- C150. However the program goes on, as long as it does not assign to the field and does not destroy it, the diagnostic refers to the same elements in
memory as the field: to the values that the field has now, also after the field has been resized. -/
theorem C150_current (o : Order) (lazy : Bool) (f : ℕ) (ghost : ℤ) (lo hi : Idx (n + 1)) (W0 W : World T n) (d : Diag n)
    (h : Diagnosed o lazy f ghost lo hi W0 d W) :
    (∀ p, W.get o d.grid p = W.get o f p) ∧ (∀ r, HasRange W f r ↔ HasRange W d.grid r) ∧
      ∀ c, d.container o W = some c ↔ ∃ g, W.grid o f = some g ∧ c = ⟨g, lo, hi, d.localMin, d.localMax⟩ := by
  obtain ⟨hr, hf, ⟨m1, m2, m3, m4, m5⟩, t, W1, ht, hi', hl⟩ := h
  obtain ⟨h', ob', e1, e2, e3, e4, e5⟩ := init_spec (o := o) (lazy := lazy) hr hf m1 m2 m3 m4 m5 ht ghost lo hi
  rw [hi', Option.some.injEq, Prod.mk.injEq] at e2
  obtain ⟨rfl, hd⟩ := e2
  obtain ⟨r1, s1⟩ := later_inv hl e3 e4
  obtain ⟨g1, g2, g3⟩ := grid_shared r1 s1
  refine ⟨g1, g3, fun c => ?_⟩
  unfold Diag.container
  rw [g2, Option.map_eq_some_iff]
  have h1 : d.globalMin = lo := by rw [hd]
  have h2 : d.globalMax = hi := by rw [hd]
  rw [h1, h2]
  constructor
  · rintro ⟨g, hg, rfl⟩
    exact ⟨g, hg, rfl⟩
  · rintro ⟨g, hg, rfl⟩
    exact ⟨g, hg, rfl⟩

theorem ready_spec {lazy : Bool} {lo hi : Idx (n + 1)} {P : Process T n} (h : P.Ready lazy lo hi) :
    Reach .c lazy P.now.heap ∧ Shares P.now.heap P.field P.diag.grid ∧ ∃ g, P.now.grid .c P.field = some g ∧
      P.diag.container .c P.now = some ⟨g, lo, hi, fun i => P.range.lo i + P.ghost, fun i => P.range.hi i - P.ghost⟩ ∧ g.range = P.range ∧
      (∀ p, InBox P.range.lo P.range.hi p → g.get? p = P.now.get .c P.field p) ∧
      Fits (⟨g, lo, hi, fun i => P.range.lo i + P.ghost, fun i => P.range.hi i - P.ghost⟩ : Container T n) := by
  have hc := (C150_current _ _ _ _ _ _ _ _ _ h.diagnosed).2.2
  obtain ⟨⟨hr, hf, ⟨m1, m2, m3, m4, m5⟩, t, W1, ht, hi', hl⟩, hb, hn, hgh, hin, hint⟩ := h
  obtain ⟨h', ob', e1, e2, e3, e4, e5⟩ := init_spec (o := .c) (lazy := lazy) hr hf m1 m2 m3 m4 m5 ht P.ghost lo hi
  rw [hi', Option.some.injEq, Prod.mk.injEq] at e2
  obtain ⟨rfl, hd⟩ := e2
  obtain ⟨r1, s1⟩ := later_inv hl e3 e4
  obtain ⟨g, g1, g2, g3, g4, g5⟩ := grid_get r1 hn
  have hrange : ob'.range = P.range := by
    obtain ⟨ob2, b1, b2⟩ := hb
    rw [e1, Option.some.injEq] at b1
    rw [b1, b2]
  have h1 : P.diag.localMin = fun i => P.range.lo i + P.ghost := by rw [hd, ← hrange]
  have h2 : P.diag.localMax = fun i => P.range.hi i - P.ghost := by rw [hd, ← hrange]
  refine ⟨r1, s1, g, g1, ?_, g3, g5, ⟨⟨g4, hin, ?_, ?_⟩, g2⟩⟩
  · rw [hc]
    exact ⟨g, g1, by rw [h1, h2]⟩
  · intro i
    simp only [g3]
    constructor <;> omega
  · intro i
    simp only [g3]
    exact hint i

/-- C150. The diagnostics of all processes write a dataset, each with its own field: the dataset has the extents of the domain, and holds the
values that the fields have at the time of output. -/
theorem C150_dataset (lazy : Bool) (lo hi : Idx (n + 1)) (P0 : Process T n) (Ps : List (Process T n))
    (h : ∀ P ∈ P0 :: Ps, P.Ready lazy lo hi) (v : Idx (n + 1) → T)
    (hv : ∀ P ∈ P0 :: Ps, ∀ p, InnerPart P.range P.ghost p → P.now.get .c P.field p = some (v p)) (fill : T) :
    ∃ D, outputAll .c fill ((P0 :: Ps).map fun P => (P.now, P.diag)) = .ok D ∧ D.dims = extent lo hi ∧
      ∀ P ∈ P0 :: Ps, ∀ p, InnerPart P.range P.ghost p → D.cells (p - lo) = v p := by
  let con : Process T n → Container T n := fun P =>
    ⟨(P.now.grid .c P.field).getD ⟨.c, P.range, []⟩, lo, hi, fun i => P.range.lo i + P.ghost, fun i => P.range.hi i - P.ghost⟩
  have hcon : ∀ P ∈ P0 :: Ps, P.diag.container .c P.now = some (con P) ∧ Fits (con P) ∧
      ∀ p, InBox P.range.lo P.range.hi p → (con P).grid.get? p = P.now.get .c P.field p := by
    intro P hP
    obtain ⟨-, -, g, g1, g2, g3, g4, g5⟩ := ready_spec (h P hP)
    have : con P = ⟨g, lo, hi, fun i => P.range.lo i + P.ghost, fun i => P.range.hi i - P.ghost⟩ := by
      simp only [con, g1, Option.getD_some]
    rw [this]
    exact ⟨g2, g5, g4⟩
  have hmap : ∀ l : List (Process T n), (∀ P ∈ l, P.diag.container .c P.now = some (con P)) →
      (l.map fun P => (P.now, P.diag)).mapM (fun p => p.2.container .c p.1) = some (l.map con) := by
    intro l
    induction l with
    | nil => intro _; rfl
    | cons P l ih =>
      intro hl
      rw [List.map_cons, List.mapM_cons, ih fun P hP => hl P (List.mem_cons_of_mem _ hP), hl P List.mem_cons_self]
      rfl
  obtain ⟨D, hD1, hD2, hD3⟩ := C68_write lo hi (con P0) (Ps.map con) fill (by
      intro c hc
      rw [← List.map_cons, List.mem_map] at hc
      obtain ⟨P, -, rfl⟩ := hc
      exact ⟨rfl, rfl⟩) (by
      intro c hc
      rw [← List.map_cons, List.mem_map] at hc
      obtain ⟨P, hP, rfl⟩ := hc
      exact (hcon P hP).2.1) v (by
      intro c hc
      rw [← List.map_cons, List.mem_map] at hc
      obtain ⟨P, hP, rfl⟩ := hc
      intro p hp
      rw [(hcon P hP).2.2 p, hv P hP p hp]
      intro i
      have := hp i
      have := (h P hP).ghost
      simp only [con] at *
      constructor <;> omega)
  refine ⟨D, ?_, hD2, fun P hP p hp => hD3 p ⟨con P, ?_, hp⟩⟩
  · unfold outputAll
    rw [hmap _ fun P hP => (hcon P hP).1]
    exact hD1
  · rw [← List.map_cons]
    exact List.mem_map_of_mem hP

/-- C150. A reader fills the field: in the inner part it has the values of the dataset, its other cells do not change, nor do those of grids that do not
share its data. -/
theorem C150_reader (lazy : Bool) (lo hi : Idx (n + 1)) (P : Process T n) (h : P.Ready lazy lo hi) (v : Idx (n + 1) → T)
    (D : Dataset (n + 1) T) (hD : DatasetHolds v lo hi D) :
    ∃ W, P.diag.read .c P.now D = .ok W ∧ W.heap = P.now.heap ∧
      (∀ p, InnerPart P.range P.ghost p → W.get .c P.field p = some (v p)) ∧
      (∀ p, InBox P.range.lo P.range.hi p → ¬ InnerPart P.range P.ghost p → W.get .c P.field p = P.now.get .c P.field p) ∧
      ∀ x, ¬ Shares P.now.heap x P.field → ∀ p, W.get .c x p = P.now.get .c x p := by
  obtain ⟨hr, hsh, g, g1, g2, g3, g4, g5⟩ := ready_spec h
  obtain ⟨b, ob, rec, a1, a2, a3, a4, a5, a6, a7⟩ := grid_spec hr h.now
  rw [g1, Option.some.injEq] at a5
  obtain ⟨c', hc1, hc2, hc3, hc4, hc5, hc6⟩ := C68_read lo hi v D hD _ ⟨rfl, rfl⟩ g5
  obtain ⟨buf, rfl⟩ := read_grid hc1
  simp only at hc3 hc4 hc5 hc6
  have hst : P.now.store P.diag.grid buf = { P.now with mem := update P.now.mem b fun k => buf.getD k (P.now.mem b k) } := by
    obtain ⟨o1, o2, s1, s2, s3⟩ := hsh
    rw [a1, Option.some.injEq] at s1
    subst s1
    simp only [World.store, s2, Option.bind_some, ← s3, a3, a4]
  have hread : P.diag.read .c P.now D = .ok (P.now.store P.diag.grid buf) := by
    unfold Diag.read
    rw [g2]
    simp only
    rw [hc1]
  have hget : ∀ p, InBox P.range.lo P.range.hi p → ∀ x, (⟨.c, P.range, buf⟩ : Grid T n).get? p = some x →
      (P.now.store P.diag.grid buf).get .c P.field p = some x := by
    intro p hp x hx
    obtain ⟨b1, b2⟩ := a7 p hp
    rw [hst]
    simp only [World.get, b1, Option.map_some, update_self]
    unfold Grid.get? at hx
    simp only at hx
    rw [List.getD_eq_getElem?_getD, hx]
    rfl
  have hgr : ({ g with buf := buf } : Grid T n) = ⟨.c, P.range, buf⟩ := by
    rw [a5]
  rw [hgr] at hc6
  have hbox : ∀ p, InnerPart P.range P.ghost p → InBox P.range.lo P.range.hi p := by
    intro p hp i
    have := hp i
    have := h.ghost
    simp only at *
    constructor <;> omega
  refine ⟨_, hread, by rw [hst], fun p hp => hget p (hbox p hp) _ ?_, fun p hp hnp => ?_, fun x hx p => ?_⟩
  · have := hc5 p hp
    simp only at this
    rw [hgr] at this
    exact this
  · have h6 := hc6 p (by rw [g3]; exact hp) hnp
    rw [g4 p hp] at h6
    obtain ⟨b1, b2⟩ := a7 p hp
    have hv : P.now.get .c P.field p = some (P.now.mem b (Storage.slot .c P.range p)) := by
      simp only [World.get, b1, Option.map_some]
    rw [hv] at h6 ⊢
    exact hget p hp _ h6
  · rw [hst]
    unfold World.get
    simp only
    rcases hacc : access .c P.now.heap x p with _ | ⟨b', k⟩
    · rfl
    · have hne : b' ≠ b := by
        rintro rfl
        apply hx
        unfold access at hacc
        rcases hox : P.now.heap.objs x with _ | ox
        · rw [hox] at hacc; cases hacc
        · rw [hox] at hacc
          simp only at hacc
          obtain ⟨rec', hrec', -⟩ := (reach_inv hr).obj_rec x ox hox
          have s1 := (reach_inv hr).shape x ox rec' hox hrec'
          rcases hp' : rec'.ptr with _ | b2
          · rw [hp'] at s1
            rw [s1.2.2] at hacc
            cases hacc
          · rw [hp'] at s1
            obtain ⟨cap, c1, -, -, c4, -⟩ := s1
            rw [c4] at hacc
            simp only [c1] at hacc
            split at hacc
            · simp only [Option.some.injEq, Prod.mk.injEq] at hacc
              obtain ⟨rfl, -⟩ := hacc
              exact ⟨ox, ob, hox, a1, (reach_inv hr).ptr_inj _ _ rec' rec b2 hrec' a3 hp' a4⟩
            · cases hacc
      simp only [Option.map_some, update_of_ne hne]

/-! ### Concrete cases -/

/-- the state after an operation -/
def nextHeap (h : Heap 0) (op : Op 0) : Heap 0 := match step .c false h op with
  | .ok h' => h'
  | .error _ => h

/-- whether the operation succeeds -/
def succeeds (h : Heap 0) (op : Op 0) : Bool := match step .c false h op with
  | .ok _ => true
  | .error _ => false

theorem next_ok {h : Heap 0} {op : Op 0} (hs : succeeds h op = true) : step .c false h op = .ok (nextHeap h op) := by
  unfold succeeds at hs
  unfold nextHeap
  split
  · assumption
  · rename_i e
    rw [e] at hs
    cases hs

/-- the program constructs the grids 4 and 1 from -1 to 4 -/
def heapA : Heap 0 := nextHeap (nextHeap (nextHeap (nextHeap Heap.empty (.construct 4)) (.resize 4 ⟨![-1], ![4]⟩ false 0)) (.construct 1))
  (.resize 1 ⟨![-1], ![4]⟩ false 0)

/-- then a diagnostic, with the members 2 and 3 -/
def heapB : Heap 0 := nextHeap heapA (.construct 2)

/-- then a diagnostic, with the members 2 and 3 -/
def heapC : Heap 0 := nextHeap heapB (.construct 3)

/-- the elements of the first buffer are 0, 10, ..., those of the second 100, 110, ... -/
def worldC : World ℤ 0 := ⟨heapC, fun b k => 100 * b + 10 * k⟩

theorem heapA_reach : Reach .c false heapA :=
  .step (op := .resize 1 ⟨![-1], ![4]⟩ false 0) (.step (op := .construct 1) (.step (op := .resize 4 ⟨![-1], ![4]⟩ false 0)
    (.step (op := .construct 4) .empty trivial (next_ok (by decide +kernel))) trivial (next_ok (by decide +kernel))) trivial
    (next_ok (by decide +kernel))) trivial (next_ok (by decide +kernel))

theorem heapB_reach : Reach .c false heapB := .step (op := .construct 2) heapA_reach trivial (next_ok (by decide +kernel))

theorem heapC_reach : Reach .c false heapC := .step (op := .construct 3) heapB_reach trivial (next_ok (by decide +kernel))

theorem heapC_members : Fresh heapC 2 ∧ Fresh heapC 3 :=
  ⟨(C150_members .c false heapB heapC heapB_reach 2).2 (.construct 3) trivial (next_ok (by decide +kernel)) (by unfold Mentions; decide)
      ((C150_members .c false heapA heapB heapA_reach 2).1 (next_ok (by decide +kernel))),
    (C150_members .c false heapB heapC heapB_reach 3).1 (next_ok (by decide +kernel))⟩

theorem hasRange_of {W : World ℤ 0} {x : ℕ} {lo hi : Idx 1} (h : (W.heap.objs x).map (fun ob => (ob.range.lo 0, ob.range.hi 0)) = some (lo 0, hi 0)) :
    HasRange W x ⟨lo, hi⟩ := by
  obtain ⟨ob, h1, h2⟩ := Option.map_eq_some_iff.mp h
  refine ⟨ob, h1, ?_⟩
  rw [Prod.mk.injEq] at h2
  obtain ⟨r, hr⟩ : ∃ r, r = ob.range := ⟨_, rfl⟩
  rw [← hr] at h2 ⊢
  obtain ⟨a, b⟩ := r
  simp only at h2
  congr 1
  · funext i; fin_cases i; exact h2.1
  · funext i; fin_cases i; exact h2.2

/-- a diagnostic of the field 1 with one ghost cell, for the domain from 0 to 3 -/
theorem worldC_init : ∃ W d, worldC.init .c false 1 2 3 5 1 ![0] ![3] = some (W, d) ∧ Diagnosed .c false 1 1 ![0] ![3] worldC d W ∧
    HasRange W 1 ⟨![-1], ![4]⟩ := by
  obtain ⟨W, d, h1, h2, h3, -⟩ := C150_init .c false worldC heapC_reach 1 2 3 5 ⟨![-1], ![4]⟩ (hasRange_of (by decide +kernel)) heapC_members.1
    heapC_members.2 (by decide) (by decide +kernel) 1 ![0] ![3]
  exact ⟨W, d, h1, h2, h3⟩

/-- evaluate a test after the diagnostic is initialised and the program has done something -/
def after (act : Action ℤ 0) (test : World ℤ 0 → Diag 0 → Bool) : Bool :=
  match worldC.init .c false 1 2 3 5 1 ![0] ![3] with
  | none => false
  | some (W, d) => match W.act .c false act with
    | none => false
    | some W' => test W' d

theorem after_spec {act : Action ℤ 0} {test : World ℤ 0 → Diag 0 → Bool} (h : after act test = true) :
    ∃ W W' d, Diagnosed .c false 1 1 ![0] ![3] worldC d W ∧ HasRange W 1 ⟨![-1], ![4]⟩ ∧ W.act .c false act = some W' ∧ test W' d = true ∧ d.grid = 3 := by
  obtain ⟨W, d, h1, h2, h3⟩ := worldC_init
  unfold after at h
  rw [h1] at h
  simp only at h
  have hd : (worldC.init .c false 1 2 3 5 1 ![0] ![3]).map (fun x => x.2.grid) = some 3 := by decide +kernel
  rw [h1] at hd
  rcases hW : W.act .c false act with _ | W'
  · rw [hW] at h; cases h
  · rw [hW] at h
    exact ⟨W, W', d, h2, h3, hW, h, by simpa using hd⟩

theorem diagnosed_act {W W' : World ℤ 0} {d : Diag 0} (h : Diagnosed .c false 1 1 ![0] ![3] worldC d W) {act : Action ℤ 0}
    (hl : Leaves false 1 d.grid W act) (ha : W.act .c false act = some W') : Diagnosed .c false 1 1 ![0] ![3] worldC d W' := by
  obtain ⟨a, b, c, t, W1, e, f, g⟩ := h
  exact ⟨a, b, c, t, W1, e, f, .step g hl ha⟩

/-- the hypotheses of C150 are met: the field has been changed since the diagnostic was initialised, and the new value is written -/
example : ∃ P : Process ℤ 0, P.Ready false ![0] ![3] ∧ P.before.get .c P.field ![2] = some 130 ∧ P.now.get .c P.field ![2] = some 42 ∧
    firstCells (outputAll .c 7 [(P.now, P.diag)]) [![0], ![1], ![2], ![3]] = some ([4], [110, 120, 42, 140]) := by
  obtain ⟨W, W', d, h1, h2, h3, h4, h5⟩ := after_spec (act := .set 1 ![2] 42) (test := fun W d => decide (W.get .c 1 ![2] = some 42) &&
    decide (firstCells (outputAll .c 7 [(W, d)]) [![0], ![1], ![2], ![3]] = some ([4], [110, 120, 42, 140])) &&
    decide ((W.heap.objs 1).map (fun ob => (ob.range.lo 0, ob.range.hi 0)) = some (-1, 4))) (by decide +kernel)
  simp only [Bool.and_eq_true, decide_eq_true_eq] at h4
  have hr : HasRange W' 1 ⟨![-1], ![4]⟩ := hasRange_of h4.2
  have hb : HasRange worldC 1 ⟨![-1], ![4]⟩ := hasRange_of (by decide +kernel)
  have hs : Sized .c W' 1 ⟨![-1], ![4]⟩ := ⟨hr, by decide, by decide +kernel, _, _, h4.1.1⟩
  have hin : ∀ i : Fin 1, (![0] : Idx 1) i ≤ (![-1] : Idx 1) i + 1 ∧ (![-1] : Idx 1) i + 1 ≤ (![4] : Idx 1) i - 1 + 1 ∧ (![4] : Idx 1) i - 1 ≤ (![3] : Idx 1) i := by
    decide
  have hint : ∀ i : Fin 1, IsInt ((![0] : Idx 1) i) ∧ IsInt ((![3] : Idx 1) i) ∧ IsInt ((![-1] : Idx 1) i) ∧ IsInt ((![4] : Idx 1) i) := by
    unfold IsInt
    decide
  have hget : worldC.get .c 1 ![2] = some 130 := by decide +kernel
  exact ⟨⟨1, 1, ⟨![-1], ![4]⟩, worldC, d, W'⟩, ⟨diagnosed_act (act := .set 1 ![2] 42) h1 trivial h3, hb, hs, Int.one_nonneg, hin, hint⟩, hget, h4.1.1,
    h4.1.2⟩

/-- C150 is false for fields that are resized after the diagnostic is initialised: the dataset has the extents of the old domain, and new cells
are missing; if the field has been made smaller, the output fails. -/
theorem C150_violated_resized :
    (∃ (W : World ℤ 0) (d : Diag 0), Diagnosed .c false 1 1 ![0] ![3] worldC d W ∧ HasRange W 1 ⟨![-1], ![6]⟩ ∧
      firstCells (outputAll .c 7 [(W, d)]) [![3]] = some ([4], [240]) ∧ W.get .c 1 ![5] = some 260) ∧
    ∃ (W : World ℤ 0) (d : Diag 0), Diagnosed .c false 1 1 ![0] ![3] worldC d W ∧ HasRange W 1 ⟨![-1], ![2]⟩ ∧
      outputAll .c 7 [(W, d)] = .failed := by
  constructor
  · obtain ⟨W, W', d, h1, h2, h3, h4, h5⟩ := after_spec (act := .grid (.resize 1 ⟨![-1], ![6]⟩ false 0)) (test := fun W d =>
      decide (firstCells (outputAll .c 7 [(W, d)]) [![3]] = some ([4], [240])) && decide (W.get .c 1 ![5] = some 260) &&
      decide ((W.heap.objs 1).map (fun ob => (ob.range.lo 0, ob.range.hi 0)) = some (-1, 6))) (by decide +kernel)
    simp only [Bool.and_eq_true, decide_eq_true_eq] at h4
    exact ⟨W', d, diagnosed_act (act := .grid (.resize 1 ⟨![-1], ![6]⟩ false 0)) h1 ⟨trivial, by unfold rebinds; simp, by unfold rebinds; simp⟩ h3, hasRange_of h4.2, h4.1.1, h4.1.2⟩
  · obtain ⟨W, W', d, h1, h2, h3, h4, h5⟩ := after_spec (act := .grid (.resize 1 ⟨![-1], ![2]⟩ false 0)) (test := fun W d =>
      (match outputAll .c 7 [(W, d)] with | .failed => true | _ => false) &&
      decide ((W.heap.objs 1).map (fun ob => (ob.range.lo 0, ob.range.hi 0)) = some (-1, 2))) (by decide +kernel)
    simp only [Bool.and_eq_true, decide_eq_true_eq] at h4
    refine ⟨W', d, diagnosed_act (act := .grid (.resize 1 ⟨![-1], ![2]⟩ false 0)) h1 ⟨trivial, by unfold rebinds; simp, by unfold rebinds; simp⟩ h3, hasRange_of h4.2, ?_⟩
    have := h4.1
    split at this
    · assumption
    · cases this

/-- C150 is false for fields that are assigned to: the diagnostic goes on writing the old values. -/
theorem C150_violated_assigned : ∃ (W W' : World ℤ 0) (d : Diag 0), Diagnosed .c false 1 1 ![0] ![3] worldC d W ∧
    W.act .c false (.grid (.assign 1 4)) = some W' ∧ HasRange W' 1 ⟨![-1], ![4]⟩ ∧ W'.get .c 1 ![3] = some 40 ∧
      firstCells (outputAll .c 7 [(W', d)]) [![3]] = some ([4], [140]) := by
  obtain ⟨W, W', d, h1, h2, h3, h4, h5⟩ := after_spec (act := .grid (.assign 1 4)) (test := fun W d =>
    decide (firstCells (outputAll .c 7 [(W, d)]) [![3]] = some ([4], [140])) && decide (W.get .c 1 ![3] = some 40) &&
    decide ((W.heap.objs 1).map (fun ob => (ob.range.lo 0, ob.range.hi 0)) = some (-1, 4))) (by decide +kernel)
  simp only [Bool.and_eq_true, decide_eq_true_eq] at h4
  exact ⟨W, W', d, h1, h3, hasRange_of h4.2, h4.1.2, h4.1.1⟩

end Schnek.Props
