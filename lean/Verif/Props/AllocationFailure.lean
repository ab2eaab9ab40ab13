import Verif.Lemma.AllocationFailure
import Verif.Props.Allocation
import Mathlib.Algebra.Order.BigOperators.Ring.Finset

/-!
# C127: grids when memory runs out
-/

namespace Schnek.Props

open Schnek Schnek.Spec Schnek.Lemma Schnek.Alloc Schnek.Lemma.Alloc Function

variable {n : ℕ}

/-- The states reached by histories of any length in which any `resize` that allocates memory may throw, and the program goes on; assignments as in C09. -/
inductive ReachEvents (o : Order) (lazy : Bool) : Heap n → Prop
  | empty : ReachEvents o lazy Heap.empty
  | done {h h' : Heap n} {op : Op n} : ReachEvents o lazy h → AssignOk lazy h op → step o lazy h op = .ok h' → ReachEvents o lazy h'
  | fails {h h' : Heap n} {a : ℕ} {r : Range (n + 1)} {shrink : Bool} {slack : ℕ} : ReachEvents o lazy h →
      failResize lazy h a r shrink slack = .ok h' → ReachEvents o lazy h'

private theorem step_total {o : Order} {lazy : Bool} {h g : Heap n} (m : Mends h g) (hinv : Inv o lazy g) (op : Op n) (hok : AssignOk lazy h op)
    (hv : ValidOp h op) : ∃ h' g', step o lazy h op = .ok h' ∧ Mends h' g' ∧ Inv o lazy g' := by
  cases op with
  | construct a => exact construct_mend m hinv hv
  | copy a b =>
    obtain ⟨ob, hb⟩ := Option.ne_none_iff_exists'.mp hv.2
    exact copy_mend m hinv hv.1 hb
  | assign a b =>
    obtain ⟨oa, ha⟩ := Option.ne_none_iff_exists'.mp hv.1
    obtain ⟨ob, hb⟩ := Option.ne_none_iff_exists'.mp hv.2
    obtain ⟨h1, h2⟩ := hok oa ob ha hb
    refine assign_mend m hinv ha hb ⟨?_, h2⟩
    rcases h1 with ⟨oa', ob', e1, e2, e3⟩ | h1
    · rw [ha] at e1; rw [hb] at e2; cases e1; cases e2
      exact Or.inl e3
    · exact Or.inr (fun x ox hx hd => h1 x ⟨ox, oa, hx, ha, hd⟩)
  | resize a r s k =>
    obtain ⟨oa, ha⟩ := Option.ne_none_iff_exists'.mp hv
    obtain ⟨h', g', e1, e2, e3, -⟩ := resize_mend m hinv ha r s k
    exact ⟨h', g', e1, e2, e3⟩
  | destroy a =>
    obtain ⟨oa, ha⟩ := Option.ne_none_iff_exists'.mp hv
    exact destroy_mend m hinv ha

private theorem valid_of_ok {o : Order} {lazy : Bool} {h h' : Heap n} {op : Op n} (hs : step o lazy h op = .ok h') : ValidOp h op := by
  cases op with
  | construct a =>
    cases ha : h.objs a with
    | none => exact ha
    | some _ => simp [step, ha] at hs
  | copy a b =>
    cases ha : h.objs a with
    | some _ => simp [step, ha] at hs
    | none =>
      cases hb : h.objs b with
      | none => simp [step, ha, hb] at hs
      | some _ => simp [ValidOp, *]
  | assign a b =>
    cases ha : h.objs a with
    | none => simp [step, ha] at hs
    | some _ =>
      cases hb : h.objs b with
      | none => simp [step, ha, hb] at hs
      | some _ => simp [ValidOp, *]
  | resize a =>
    cases ha : h.objs a with
    | none => simp [step, ha] at hs
    | some _ => simp [ValidOp, *]
  | destroy a =>
    cases ha : h.objs a with
    | none => simp [step, ha] at hs
    | some _ => simp [ValidOp, *]

private theorem fails_alloc {lazy : Bool} {h h' : Heap n} {a : ℕ} {r : Range (n + 1)} {shrink : Bool} {slack : ℕ}
    (hs : failResize lazy h a r shrink slack = .ok h') :
    ∃ oa, h.objs a = some oa ∧ mustRealloc lazy (Storage.size r).val oa.bufSize shrink = true := by
  cases ha : h.objs a with
  | none => simp [failResize, ha] at hs
  | some oa =>
    refine ⟨oa, rfl, ?_⟩
    cases hr : h.recs oa.data with
    | none => simp [failResize, ha, hr] at hs
    | some rec =>
      by_contra hm
      simp only [failResize, ha, hr, if_neg hm] at hs
      cases hs

private theorem reach_mend {o : Order} {lazy : Bool} {h : Heap n} (hr : ReachEvents o lazy h) :
    (∃ g, Mends h g ∧ Inv o lazy g) ∧ Stale h := by
  induction hr with
  | empty => exact ⟨⟨_, Mends.refl _, inv_empty o lazy⟩, fun x ob rec b hx => by cases hx⟩
  | done _ hok hs ih =>
    obtain ⟨⟨g, m, hinv⟩, hst⟩ := ih
    obtain ⟨h'', g', e1, e2, e3⟩ := step_total m hinv _ hok (valid_of_ok hs)
    rw [hs] at e1
    cases e1
    exact ⟨⟨g', e2, e3⟩, step_stale m hinv hst hs⟩
  | fails _ hs ih =>
    obtain ⟨⟨g, m, hinv⟩, hst⟩ := ih
    obtain ⟨oa, ha, hm⟩ := fails_alloc hs
    obtain ⟨h'', g', e1, e2, e3, -⟩ := fail_mend m hinv ha _ _ _ hm
    rw [hs] at e1
    cases e1
    exact ⟨⟨g', e2, e3⟩, fail_stale hst hs⟩

/-- the memory that `new T[...]` would return is needed for `a.resize(r)`: always, or with the lazy policy if the buffer that the grid remembers is too small or shrinks -/
def Allocates (lazy : Bool) (h : Heap n) (a : ℕ) (r : Range (n + 1)) (shrink : Bool) : Prop :=
  ∃ oa, h.objs a = some oa ∧ (lazy = true → shrink = true ∨ oa.bufSize < (Storage.size r).val)

private theorem allocates_iff {lazy : Bool} {h : Heap n} {a : ℕ} {r : Range (n + 1)} {shrink : Bool} {oa : Obj n} (ha : h.objs a = some oa) :
    Allocates lazy h a r shrink ↔ mustRealloc lazy (Storage.size r).val oa.bufSize shrink = true := by
  have : Allocates lazy h a r shrink ↔ (lazy = true → shrink = true ∨ oa.bufSize < (Storage.size r).val) :=
    ⟨fun ⟨o', e, hh⟩ => by rw [ha] at e; cases e; exact hh, fun hh => ⟨oa, ha, hh⟩⟩
  rw [this]
  cases lazy <;> simp [mustRealloc, or_comm]

/-- **C127** Whenever memory has run out, and however often: every operation on live grids is carried out, without a double `delete[]`, a callback of a destroyed
grid or an access to a destroyed record; a `resize` that allocates may throw again; no buffer is lost (each one is held by a live grid); and if no
grid is left, neither is a buffer. -/
theorem C127_memory_safe_partial (o : Order) (lazy : Bool) (h : Heap n) (hr : ReachEvents o lazy h) :
    (∀ op, AssignOk lazy h op → ((∃ h', step o lazy h op = .ok h') ↔ ValidOp h op)) ∧
    (∀ a r shrink slack, (∃ h', failResize lazy h a r shrink slack = .ok h') ↔ Allocates lazy h a r shrink) ∧
    (∀ b cap, h.bufs b = .live cap → ∃ x ob rec, h.objs x = some ob ∧ h.recs ob.data = some rec ∧ rec.ptr = some b) ∧
    ((∀ x, h.objs x = none) → ∀ b cap, h.bufs b ≠ .live cap) := by
  obtain ⟨⟨g, m, hinv⟩, -⟩ := reach_mend hr
  have hown : ∀ b cap, h.bufs b = .live cap → ∃ x ob rec, h.objs x = some ob ∧ h.recs ob.data = some rec ∧ rec.ptr = some b := by
    intro b cap hb
    rw [m.bufs] at hb
    obtain ⟨d, rec, e1, e2⟩ := hinv.owner b cap hb
    obtain ⟨x, hx⟩ := List.exists_mem_of_ne_nil _ (hinv.holder_ne d rec e1)
    rcases hinv.holder d rec e1 x hx with hf | ⟨og, f1, f2⟩
    · exact hf.elim
    · have hmx := m.data x
      rw [f1] at hmx
      cases hh : h.objs x with
      | none => rw [hh] at hmx; cases hmx
      | some ob =>
        rw [hh] at hmx
        exact ⟨x, ob, rec, hh, by rw [m.recs, Option.some.inj hmx, f2]; exact e1, e2⟩
  refine ⟨fun op hok => ⟨fun ⟨h', hs⟩ => valid_of_ok hs, fun hv => ?_⟩, fun a r shrink slack => ⟨fun ⟨h', hs⟩ => ?_, fun ha => ?_⟩, hown,
    fun hn b cap hb => ?_⟩
  · obtain ⟨h', g', e, -⟩ := step_total m hinv op hok hv
    exact ⟨h', e⟩
  · obtain ⟨oa, ha, hm⟩ := fails_alloc hs
    exact (allocates_iff ha).mpr hm
  · obtain ⟨oa, hoa, -⟩ := id ha
    obtain ⟨h', g', e, -⟩ := fail_mend m hinv hoa r shrink slack ((allocates_iff hoa).mp ha)
    exact ⟨h', e⟩
  · obtain ⟨x, ob, rec, hx, -⟩ := hown b cap hb
    rw [hn x] at hx
    cases hx

/-- **C127** The grids that do not share data with `a` do not notice that `a.resize` throws: they keep their range and all their elements. -/
theorem C127_others_unaffected (o : Order) (lazy : Bool) (h h' : Heap n) (hr : ReachEvents o lazy h) (a : ℕ) (r : Range (n + 1)) (shrink : Bool)
    (slack : ℕ) (hs : failResize lazy h a r shrink slack = .ok h') (x : ℕ) (hx : ¬ Shares h x a) :
    h'.objs x = h.objs x ∧ ∀ p, access o h' x p = access o h x p := by
  obtain ⟨⟨g, m, hinv⟩, hst⟩ := reach_mend hr
  obtain ⟨oa, ha, hm⟩ := fails_alloc hs
  obtain ⟨h'', g', e1, e2, e3, e4, e5, e6⟩ := fail_mend m hinv ha r shrink slack hm
  rw [hs] at e1
  cases e1
  cases hox : h.objs x with
  | none =>
    have hxa : x ≠ a := by rintro rfl; rw [ha] at hox; cases hox
    refine ⟨(e4 x hxa).trans hox, fun p => ?_⟩
    simp only [access, (e4 x hxa).trans hox, hox]
  | some ox =>
    have hd : ox.data ≠ oa.data := fun hd => hx ⟨ox, oa, hox, ha, hd⟩
    have hxa : x ≠ a := by rintro rfl; rw [ha] at hox; cases hox; exact hd rfl
    have hobj := (e4 x hxa).trans hox
    refine ⟨hobj, fun p => ?_⟩
    simp only [access, hobj, hox]
    cases hf : ox.fast.1 with
    | none => rfl
    | some b =>
      obtain ⟨og, f1, f2⟩ := m.some hox
      obtain ⟨rec, f3, -⟩ := hinv.obj_rec x og f1
      have hrec : h.recs ox.data = some rec := by rw [m.recs, ← f2]; exact f3
      rcases hst x ox rec b hox hrec hf with hp | hp
      · simp only [e6 x ox hox hd rec b hrec hp]
      · cases hb' : h'.bufs b with
        | live c =>
          have := e5 b c hb'
          rw [hp] at this
          cases this
        | unused => simp [hp, hb']
        | freed => simp [hp, hb']

/-- **C127** FINDING, for every history: when `a.resize` throws, the contents of `a` and of all grids that share data with it are lost, and no element of
them may be accessed any more (NULL or freed memory), although their ranges are not empty. -/
theorem C127_failure_loses_data (o : Order) (lazy : Bool) (h h' : Heap n) (hr : ReachEvents o lazy h) (a : ℕ) (r : Range (n + 1)) (shrink : Bool)
    (slack : ℕ) (hs : failResize lazy h a r shrink slack = .ok h') (x : ℕ) (hx : Shares h' x a) (p : Idx (n + 1)) :
    access o h' x p = none := by
  obtain ⟨-, hst⟩ := reach_mend (.fails hr hs)
  obtain ⟨ox, oa', e1, e2, e3⟩ := hx
  have hnull : ∃ rec, h'.recs oa'.data = some rec ∧ rec.ptr = none := by
    cases ha : h.objs a with
    | none => simp [failResize, ha] at hs
    | some oa =>
      cases hrec : h.recs oa.data with
      | none => simp [failResize, ha, hrec] at hs
      | some rec =>
        simp only [failResize, ha, hrec] at hs
        by_cases hm : mustRealloc lazy (Storage.size r).val oa.bufSize shrink = true
        · rw [if_pos hm] at hs
          cases hfr : freeBuf h rec.ptr with
          | error e => rw [hfr] at hs; cases hs
          | ok h0 =>
            rw [hfr] at hs
            cases hs
            simp only [Heap.setRec, Heap.setObj, update_self, Option.some.injEq] at e2
            rw [← e2]
            exact ⟨{ rec with ptr := none }, by simp [Heap.setRec, Heap.setObj], rfl⟩
        · rw [if_neg hm] at hs; cases hs
  obtain ⟨rec, hrec, hp⟩ := hnull
  simp only [access, e1]
  cases hf : ox.fast.1 with
  | none => rfl
  | some b =>
    rcases hst x ox rec b e1 (by rw [e3]; exact hrec) hf with hb | hb
    · rw [hp] at hb; cases hb
    · simp [hb]

/-- **C127** The damage can be repaired: when a later `a.resize(r)` allocates memory (always, with the standard policy) and succeeds, all grids that share data with `a` have
range `r`, all elements of this range can be accessed, and they are the same elements for all of these grids. -/
theorem C127_repair_partial (o : Order) (lazy : Bool) (h h' : Heap n) (hr : ReachEvents o lazy h) (a : ℕ) (r : Range (n + 1)) (shrink : Bool)
    (slack : ℕ) (halloc : Allocates lazy h a r shrink) (hs : step o lazy h (.resize a r shrink slack) = .ok h') (hne : ∀ i, r.lo i ≤ r.hi i)
    (hfit : ∏ i, extent r.lo r.hi i < 2 ^ 64) (x : ℕ) (hx : Shares h x a) :
    Shares h' x a ∧ (∃ ox, h'.objs x = some ox ∧ ox.range = r ∧ (ox.size : ℤ) = ∏ i, extent r.lo r.hi i) ∧
    ∀ p, InBox r.lo r.hi p → (access o h' x p).isSome ∧ access o h' x p = access o h' a p ∧
      ∀ q, InBox r.lo r.hi q → access o h' x q = access o h' x p → q = p := by
  obtain ⟨⟨g, m, hinv⟩, -⟩ := reach_mend hr
  obtain ⟨ox, oa, hox, hoa, hxa⟩ := hx
  obtain ⟨h'', g', e1, m', hinv', hshape, hptr⟩ := resize_mend m hinv hoa r shrink slack
  rw [hs] at e1
  cases e1
  obtain ⟨rec, b, hrec, hb⟩ := hptr ((allocates_iff hoa).mp halloc)
  obtain ⟨oy, y1, y2, y3, y4⟩ := hshape x ox hox hxa
  obtain ⟨oz, z1, z2, z3, z4⟩ := hshape a oa hoa rfl
  have hgx : g'.objs x = some oy := m'.same x oy rec b y1 (by rw [y2]; exact hrec) hb
  have hga : g'.objs a = some oz := m'.same a oz rec b z1 (by rw [z2]; exact hrec) hb
  have hsize := (C04_c_order_bijection r hne hfit).2
  have hpos : ∀ ob : Obj n, ob.size = (Storage.size r).val → ob.size ≠ 0 := by
    intro ob hob
    have : 0 < ∏ i, extent r.lo r.hi i := Finset.prod_pos fun i _ => by
      have := hne i
      simp only [extent]
      omega
    omega
  have hacc : ∀ y p, access o h' y p = access o g' y p ∨ h'.objs y ≠ g'.objs y := by
    intro y p
    by_cases he : h'.objs y = g'.objs y
    · left; simp only [access, he, m'.bufs]
    · exact Or.inr he
  have key : ∀ y ob, h'.objs y = some ob → g'.objs y = some ob → ob.range = r → ob.size = (Storage.size r).val → ob.data = oa.data →
      ∀ p, InBox r.lo r.hi p → access o h' y p = some (b, Storage.slot o r p) := by
    intro y ob hy hgy hor hos hod p hp
    have he : access o h' y p = access o g' y p := by
      rcases hacc y p with he | he
      · exact he
      · exact absurd (hy.trans hgy.symm) he
    obtain ⟨b', rec', i1, i2, i3⟩ := access_eq hinv' hgy (hpos ob hos) (by rw [hor]; exact hfit) (p := p) (by rw [hor]; exact hp)
    rw [← m'.recs, hod, hrec] at i1
    cases i1
    rw [hb] at i2
    cases i2
    rw [he, i3, hor]
  refine ⟨⟨oy, oz, y1, z1, y2.trans z2.symm⟩, ⟨oy, y1, y3, by rw [y4]; exact hsize⟩, fun p hp => ?_⟩
  have k1 := key x oy y1 hgx y3 y4 y2 p hp
  have k2 := key a oz z1 hga z3 z4 z2 p hp
  refine ⟨by rw [k1]; rfl, by rw [k1, k2], fun q hq haq => ?_⟩
  rw [k1, key x oy y1 hgx y3 y4 y2 q hq] at haq
  have hk : Storage.slot o r q = Storage.slot o r p := by
    simpa using congrArg (fun z => z.map Prod.snd) haq
  cases o with
  | c => exact (C04_c_order_bijection r hne hfit).1.2.1 hq hp hk
  | fortran => exact (C05_fortran_order_bijection r hne hfit).1.2.1 hq hp hk

/-- evaluate a history with failures and test the final state -/
def eventsTest (o : Order) (lazy : Bool) (l : List (Event n)) (t : Heap n → Bool) : Bool :=
  match runEvents o lazy Heap.empty l with
  | .ok h => t h
  | .error _ => false

theorem eventsTest_iff {o : Order} {lazy : Bool} {l : List (Event n)} {t : Heap n → Bool} :
    eventsTest o lazy l t = true ↔ ∃ h, runEvents o lazy Heap.empty l = .ok h ∧ t h = true := by
  unfold eventsTest
  cases runEvents o lazy Heap.empty l with
  | ok h => exact ⟨fun ht => ⟨h, rfl, ht⟩, fun ⟨h', e, ht⟩ => by cases e; exact ht⟩
  | error e => simp

/-- Histories without assignments are all covered. -/
theorem C127_histories_reach (o : Order) (lazy : Bool) (l : List (Event n)) (hl : ∀ e ∈ l, ∀ a b, e ≠ .done (.assign a b)) (h : Heap n)
    (hs : runEvents o lazy Heap.empty l = .ok h) : ReachEvents o lazy h := by
  have key : ∀ (l : List (Event n)), (∀ e ∈ l, ∀ a b, e ≠ .done (.assign a b)) → ∀ h h' : Heap n, ReachEvents o lazy h →
      runEvents o lazy h l = .ok h' → ReachEvents o lazy h' := by
    intro l
    induction l with
    | nil =>
      intro _ h h' hr hs
      cases hs
      exact hr
    | cons e l ih =>
      intro hl h h' hr hs
      simp only [runEvents, List.foldlM_cons] at hs
      cases h1 : stepEvent o lazy h e with
      | error e' => rw [h1] at hs; cases hs
      | ok h1' =>
        rw [h1] at hs
        refine ih (fun e' h' => hl e' (by simp [h'])) h1' h' ?_ hs
        cases e with
        | fails a r s k => exact .fails hr h1
        | done op =>
          refine .done hr ?_ h1
          cases op with
          | assign a b => exact absurd rfl (hl (.done (.assign a b)) (by simp) a b)
          | construct => trivial
          | copy => trivial
          | resize => trivial
          | destroy => trivial
  exact key l hl _ _ .empty hs

/-- **C127** FINDING: after a `resize` of `a` from 10 to 100 cells that throws, `a` says that it has 100 cells, its copy `b` says that it has 10; they share data,
and cell 5, which could be accessed before through both, cannot be accessed any more. -/
theorem C127_violated_grid_after_failure : ∃ h h' : Heap 0,
    runEvents .c false Heap.empty [.done (.construct 1), .done (.resize 1 ⟨![0], ![9]⟩ false 0), .done (.copy 2 1)] = .ok h ∧
    (access .c h 1 ![5]).isSome = true ∧ (access .c h 2 ![5]).isSome = true ∧
    stepEvent .c false h (.fails 1 ⟨![0], ![99]⟩ false 0) = .ok h' ∧
    ∃ oa ob, h'.objs 1 = some oa ∧ h'.objs 2 = some ob ∧ oa.data = ob.data ∧ oa.range.hi 0 = 99 ∧ ob.range.hi 0 = 9 ∧
      access .c h' 1 ![5] = none ∧ access .c h' 2 ![5] = none := by
  refine ⟨_, _, rfl, by decide, by decide, rfl, _, _, rfl, rfl, rfl, rfl, rfl, by decide, by decide⟩

/-- **C127** FINDING: with the lazy policy a failure cannot always be repaired. The grid remembers the size of the buffer that it did not get; the next
`resize`, to fewer cells, succeeds without allocating any memory: the grid has 10 cells, and no element can be accessed. -/
theorem C127_violated_lazy_resize_without_memory : ∃ h : Heap 0,
    runEvents .c true Heap.empty [.done (.construct 1), .fails 1 ⟨![0], ![99]⟩ false 0, .done (.resize 1 ⟨![0], ![9]⟩ false 0)] = .ok h ∧
    ∃ oa, h.objs 1 = some oa ∧ oa.range.lo 0 = 0 ∧ oa.range.hi 0 = 9 ∧ oa.size = 10 ∧ ∀ p, access .c h 1 p = none := by
  refine ⟨_, rfl, _, rfl, rfl, rfl, rfl, fun p => rfl⟩

/-- non-vacuity: a `resize` throws, the grid and its copy are resized again and share 20 elements; another grid has kept its element -/
example : ∃ h : Heap 0, ReachEvents .c false h ∧ access .c h 1 ![14] = some (2, 19) ∧ access .c h 2 ![14] = some (2, 19) ∧
    access .c h 3 ![2] = some (1, 2) := by
  have ht : eventsTest (n := 0) .c false [.done (.construct 1), .done (.resize 1 ⟨![0], ![9]⟩ false 0), .done (.copy 2 1),
      .done (.construct 3), .done (.resize 3 ⟨![0], ![3]⟩ false 0), .fails 2 ⟨![0], ![99]⟩ false 0,
      .done (.resize 1 ⟨![-5], ![14]⟩ false 0)] (fun h => decide (access .c h 1 ![14] = some (2, 19)) &&
        decide (access .c h 2 ![14] = some (2, 19)) && decide (access .c h 3 ![2] = some (1, 2))) = true := by decide
  obtain ⟨h, h1, h2⟩ := eventsTest_iff.mp ht
  refine ⟨h, C127_histories_reach .c false _ (by simp) h h1, ?_⟩
  simpa [and_assoc] using h2

end Schnek.Props
