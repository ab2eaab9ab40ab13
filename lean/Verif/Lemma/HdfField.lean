import Verif.Spec.HdfField

/-!
# Grids that share data, for grid diagnostics
-/

namespace Schnek.Lemma.HdfField

open Schnek Schnek.Alloc Schnek.HdfField Schnek.Spec Schnek.Props Schnek.Lemma.Alloc Function

variable {T : Type} {n : ℕ} {o : Order} {lazy : Bool}

theorem shares_symm {h : Heap n} {x y : ℕ} (hs : Shares h x y) : Shares h y x := by
  obtain ⟨ox, oy, h1, h2, h3⟩ := hs
  exact ⟨oy, ox, h2, h1, h3.symm⟩

theorem shares_trans {h : Heap n} {x y z : ℕ} (h1 : Shares h x y) (h2 : Shares h y z) : Shares h x z := by
  obtain ⟨ox, oy, a1, a2, a3⟩ := h1
  obtain ⟨oy', oz, b1, b2, b3⟩ := h2
  rw [a2, Option.some.injEq] at b1
  subst b1
  exact ⟨ox, oz, a1, b2, a3.trans b3⟩

/-- the objects after an operation other than `resize`: one address changes -/
theorem step_objs {h h' : Heap n} (hinv : Inv o lazy h) {op : Op n} (hs : step o lazy h op = .ok h') :
    (∃ a r s k, op = .resize a r s k) ∨
    (∃ a ob, op = .construct a ∧ ob.data = h.nextRec ∧ ob.bufSize = 0 ∧ h'.objs = update h.objs a (some ob)) ∨
    (∃ a b ob, op = .copy a b ∧ h.objs b = some ob ∧ h'.objs = update h.objs a (some ob)) ∨
    (∃ a b ob ob', op = .assign a b ∧ h.objs b = some ob ∧ ob'.data = ob.data ∧ ob'.range = ob.range ∧ h'.objs = update h.objs a (some ob')) ∨
    (∃ a, op = .destroy a ∧ h'.objs = update h.objs a none) := by
  cases op with
  | construct a =>
    cases ha : h.objs a with
    | some _ => simp [step, ha] at hs
    | none =>
      simp only [step, ha] at hs
      cases hs
      exact .inr (.inl ⟨a, _, rfl, rfl, rfl, rfl⟩)
  | copy a b =>
    cases ha : h.objs a with
    | some _ => simp [step, ha] at hs
    | none =>
      cases hb : h.objs b with
      | none => simp [step, ha, hb] at hs
      | some ob =>
        obtain ⟨rec, hr, _⟩ := hinv.obj_rec b ob hb
        simp only [step, ha, hb, hr] at hs
        cases hs
        exact .inr (.inr (.inl ⟨a, b, ob, rfl, hb, rfl⟩))
  | assign a b =>
    cases ha : h.objs a with
    | none => simp [step, ha] at hs
    | some oa =>
      cases hb : h.objs b with
      | none => simp [step, ha, hb] at hs
      | some ob =>
        obtain ⟨rec, hr, _⟩ := hinv.obj_rec b ob hb
        simp only [step, ha, hb, hr] at hs
        refine .inr (.inr (.inr (.inl ⟨a, b, ob, { ob with bufSize := oa.bufSize }, rfl, hb, rfl, rfl, ?_⟩)))
        by_cases hd : oa.data = ob.data
        · rw [if_pos hd] at hs; cases hs; rfl
        · rw [if_neg hd] at hs
          exact release_objs hs
  | resize a r s k => exact .inl ⟨a, r, s, k, rfl⟩
  | destroy a =>
    cases ha : h.objs a with
    | none => simp [step, ha] at hs
    | some oa =>
      obtain ⟨rec, hr, _⟩ := hinv.obj_rec a oa ha
      simp only [step, ha, hr] at hs
      exact .inr (.inr (.inr (.inr ⟨a, rfl, release_objs hs⟩)))

theorem shares_of_ne {h h' : Heap n} {x y z : ℕ} {v : Option (Obj n)} (ho : h'.objs = update h.objs x v) (hy : y ≠ x) (hz : z ≠ x) :
    Shares h' y z ↔ Shares h y z := by
  unfold Shares
  rw [ho, update_of_ne hy, update_of_ne hz]

/-- what the program does with other grids leaves a fresh grid fresh -/
theorem fresh_step {h h' : Heap n} (hr : Reach o lazy h) {op : Op n} (hok : AssignOk lazy h op) (hs : step o lazy h op = .ok h') {a : ℕ}
    (hm : ¬ Mentions op a) (hf : Fresh h a) : Fresh h' a := by
  have hinv := reach_inv hr
  obtain ⟨⟨ob, hob, hb0⟩, halone⟩ := hf
  rcases step_objs hinv hs with ⟨x, r, s, k, rfl⟩ | ⟨x, ox, rfl, hd, -, ho⟩ | ⟨x, b, ox, rfl, hb, ho⟩ | ⟨x, b, ox, ox', rfl, hb, hd, -, ho⟩ | ⟨x, rfl, ho⟩
  · have hxa : a ≠ x := hm
    cases hx : h.objs x with
    | none => simp [step, hx] at hs
    | some ox =>
      obtain ⟨h'', e1, -, e3⟩ := C09_resize o lazy h hr x ox hx r s k
      rw [hs, Except.ok.injEq] at e1
      subst e1
      refine ⟨⟨ob, e3 a ob hob (fun hsh => hxa (halone x (shares_symm hsh)).symm), hb0⟩, fun y hy => halone y ?_⟩
      exact (C09_sharing_persists o lazy h h' hr _ hok hs y a (fun h => h) (fun h => h)).1 hy
  · have hxa : a ≠ x := hm
    refine ⟨⟨ob, by rw [ho, update_of_ne hxa, hob], hb0⟩, fun y hy => ?_⟩
    by_cases hyx : y = x
    · subst hyx
      obtain ⟨o1, o2, h1, h2, h3⟩ := hy
      rw [ho, update_self, Option.some.injEq] at h1
      rw [ho, update_of_ne hxa, hob, Option.some.injEq] at h2
      subst h1 h2
      obtain ⟨rec, f1, -⟩ := hinv.obj_rec a ob hob
      rw [← h3, hd, hinv.fresh_rec _ le_rfl] at f1
      cases f1
    · exact halone y ((shares_of_ne ho hyx hxa).1 hy)
  · have hxa : a ≠ x := fun h => hm (.inl h)
    refine ⟨⟨ob, by rw [ho, update_of_ne hxa, hob], hb0⟩, fun y hy => ?_⟩
    by_cases hyx : y = x
    · subst hyx
      obtain ⟨o1, o2, h1, h2, h3⟩ := hy
      rw [ho, update_self, Option.some.injEq] at h1
      rw [ho, update_of_ne hxa, hob, Option.some.injEq] at h2
      subst h1 h2
      exact absurd (halone b ⟨_, _, hb, hob, h3⟩).symm (fun h => hm (.inr h))
    · exact halone y ((shares_of_ne ho hyx hxa).1 hy)
  · have hxa : a ≠ x := fun h => hm (.inl h)
    refine ⟨⟨ob, by rw [ho, update_of_ne hxa, hob], hb0⟩, fun y hy => ?_⟩
    by_cases hyx : y = x
    · subst hyx
      obtain ⟨o1, o2, h1, h2, h3⟩ := hy
      rw [ho, update_self, Option.some.injEq] at h1
      rw [ho, update_of_ne hxa, hob, Option.some.injEq] at h2
      subst h1 h2
      exact absurd (halone b ⟨_, _, hb, hob, hd.symm.trans h3⟩).symm (fun h => hm (.inr h))
    · exact halone y ((shares_of_ne ho hyx hxa).1 hy)
  · have hxa : a ≠ x := hm
    refine ⟨⟨ob, by rw [ho, update_of_ne hxa, hob], hb0⟩, fun y hy => ?_⟩
    by_cases hyx : y = x
    · subst hyx
      obtain ⟨o1, o2, h1, -, -⟩ := hy
      rw [ho, update_self] at h1
      cases h1
    · exact halone y ((shares_of_ne ho hyx hxa).1 hy)

theorem fresh_construct {h h' : Heap n} (hr : Reach o lazy h) {a : ℕ} (hs : step o lazy h (.construct a) = .ok h') : Fresh h' a := by
  have hinv := reach_inv hr
  rcases step_objs hinv hs with ⟨x, r, s, k, hx⟩ | ⟨x, ox, hx, hd, hb, ho⟩ | ⟨x, b, ox, hx, -⟩ | ⟨x, b, ox, ox', hx, -⟩ | ⟨x, hx, -⟩ <;> cases hx
  refine ⟨⟨ox, by rw [ho, update_self], hb⟩, fun y hy => ?_⟩
  by_contra hya
  obtain ⟨o1, o2, h1, h2, h3⟩ := hy
  rw [ho, update_of_ne hya] at h1
  rw [ho, update_self, Option.some.injEq] at h2
  subst h2
  obtain ⟨rec, f1, -⟩ := hinv.obj_rec y o1 h1
  rw [h3, hd, hinv.fresh_rec _ le_rfl] at f1
  cases f1

/-- assigning to a fresh grid is allowed -/
theorem assignOk_fresh {h : Heap n} {a b : ℕ} (hf : Fresh h a) : AssignOk lazy h (.assign a b) := by
  intro oa ob hoa hob
  obtain ⟨ob', h1, h2⟩ := hf.alive
  rw [hoa, Option.some.injEq] at h1
  subst h1
  exact ⟨.inr hf.alone, fun _ => by rw [h2]; exact Nat.zero_le _⟩

/-- what `init` does -/
theorem init_spec {W : World T n} (hr : Reach o lazy W.heap) {f a c t : ℕ} (hf : W.heap.objs f ≠ none) (ha : Fresh W.heap a)
    (hc : Fresh W.heap c) (hac : a ≠ c) (hfa : f ≠ a) (hfc : f ≠ c) (ht : W.heap.objs t = none) (ghost : ℤ) (lo hi : Idx (n + 1)) :
    ∃ h ob, W.heap.objs f = some ob ∧ W.init o lazy f a c t ghost lo hi =
        some ({ W with heap := h }, ⟨a, c, lo, hi, fun i => ob.range.lo i + ghost, fun i => ob.range.hi i - ghost⟩) ∧
      Reach o lazy h ∧ Shares h f c ∧ h.objs f = W.heap.objs f := by
  obtain ⟨of, hof⟩ := Option.ne_none_iff_exists'.mp hf
  have hta : t ≠ a := by
    rintro rfl
    obtain ⟨ob, h1, -⟩ := ha.alive
    rw [ht] at h1
    cases h1
  have htc : t ≠ c := by
    rintro rfl
    obtain ⟨ob, h1, -⟩ := hc.alive
    rw [ht] at h1
    cases h1
  have htf : t ≠ f := by
    rintro rfl
    exact hf ht
  -- `copy = f`
  have ok1 : AssignOk lazy W.heap (.assign a f) := assignOk_fresh ha
  obtain ⟨h1, e1⟩ := (C10_valid_operations_succeed_partial o lazy W.heap hr _ ok1).2
    ⟨by obtain ⟨ob, h, -⟩ := ha.alive; rw [h]; simp, hf⟩
  have r1 := Reach.step hr ok1 e1
  have s1 : Shares h1 a f := C09_copy_and_assign_share o lazy W.heap h1 hr a f (.inr ⟨ok1, e1⟩)
  have c1 : Fresh h1 c := fresh_step hr ok1 e1 (by rintro (h | h); exacts [hac h.symm, hfc h.symm]) hc
  obtain ⟨ob1, ob1', -, hb1, d1, d1', o1⟩ : ∃ ob ob', Op.assign a f = (Op.assign a f : Op n) ∧ W.heap.objs f = some ob ∧ ob'.data = ob.data ∧
      ob'.range = ob.range ∧ h1.objs = update W.heap.objs a (some ob') := by
    rcases step_objs (reach_inv hr) e1 with ⟨x, r, s, k, hx⟩ | ⟨x, ox, hx, -⟩ | ⟨x, b, ox, hx, -⟩ | ⟨x, b, ox, ox', hx, hb, hd, hd', ho⟩ |
      ⟨x, hx, -⟩ <;> cases hx
    exact ⟨ox, ox', rfl, hb, hd, hd', ho⟩
  -- the argument of `CopyToContainer::copy`
  have ok2 : AssignOk lazy h1 (.copy t a) := trivial
  obtain ⟨h2, e2⟩ := (C10_valid_operations_succeed_partial o lazy h1 r1 _ ok2).2
    ⟨by rw [o1, update_of_ne hta, ht], by rw [o1, update_self]; simp⟩
  have r2 := Reach.step r1 ok2 e2
  have s2 : Shares h2 t a := C09_copy_and_assign_share o lazy h1 h2 r1 t a (.inl e2)
  have s2' : Shares h2 a f := (C09_sharing_persists o lazy h1 h2 r1 _ ok2 e2 a f (Ne.symm hta) (Ne.symm htf)).2 s1
  have c2 : Fresh h2 c := fresh_step r1 ok2 e2 (by rintro (h | h); exacts [htc h.symm, hac h.symm]) c1
  -- `container.grid = field`
  have ok3 : AssignOk lazy h2 (.assign c t) := assignOk_fresh c2
  obtain ⟨h3, e3⟩ := (C10_valid_operations_succeed_partial o lazy h2 r2 _ ok3).2
    ⟨by obtain ⟨ob, h, -⟩ := c2.alive; rw [h]; simp, by obtain ⟨ob, -, h, -⟩ := s2; rw [h]; simp⟩
  have r3 := Reach.step r2 ok3 e3
  have s3 : Shares h3 c t := C09_copy_and_assign_share o lazy h2 h3 r2 c t (.inr ⟨ok3, e3⟩)
  have s3' : Shares h3 t a := (C09_sharing_persists o lazy h2 h3 r2 _ ok3 e3 t a htc hac).2 s2
  have s3'' : Shares h3 a f := (C09_sharing_persists o lazy h2 h3 r2 _ ok3 e3 a f hac hfc).2 s2'
  -- the end of the argument
  have ok4 : AssignOk lazy h3 (.destroy t) := trivial
  obtain ⟨h4, e4⟩ := (C10_valid_operations_succeed_partial o lazy h3 r3 _ ok4).2 (by
    obtain ⟨ob, ob', -, h, -⟩ := s3
    show h3.objs t ≠ none
    rw [h]; simp)
  have r4 := Reach.step r3 ok4 e4
  have s4 : Shares h4 c f := (C09_sharing_persists o lazy h3 h4 r3 _ ok4 e4 c f (Ne.symm htc) (Ne.symm htf)).2
    (shares_trans s3 (shares_trans s3' s3''))
  have o2 : ∀ x, x ≠ t → h2.objs x = h1.objs x := by
    intro x hx
    rcases step_objs (reach_inv r1) e2 with ⟨y, r, s, k, hy⟩ | ⟨y, ox, hy, -⟩ | ⟨y, b, ox, hy, -, ho⟩ | ⟨y, b, ox, ox', hy, -⟩ |
      ⟨y, hy, -⟩ <;> cases hy
    rw [ho, update_of_ne hx]
  have o3 : ∀ x, x ≠ c → h3.objs x = h2.objs x := by
    intro x hx
    rcases step_objs (reach_inv r2) e3 with ⟨y, r, s, k, hy⟩ | ⟨y, ox, hy, -⟩ | ⟨y, b, ox, hy, -⟩ | ⟨y, b, ox, ox', hy, -, -, -, ho⟩ |
      ⟨y, hy, -⟩ <;> cases hy
    rw [ho, update_of_ne hx]
  have o4 : ∀ x, x ≠ t → h4.objs x = h3.objs x := by
    intro x hx
    rcases step_objs (reach_inv r3) e4 with ⟨y, r, s, k, hy⟩ | ⟨y, ox, hy, -⟩ | ⟨y, b, ox, hy, -⟩ | ⟨y, b, ox, ox', hy, -⟩ |
      ⟨y, hy, ho⟩ <;> cases hy
    rw [ho, update_of_ne hx]
  have hrun : run o lazy W.heap (initOps f a c t) = .ok h4 := by
    simp only [run, initOps, List.foldlM_cons, List.foldlM_nil, e1, bind, Except.bind, e2, e3, e4, pure, Except.pure]
  have hr1 : ob1 = of := by
    rw [hof, Option.some.injEq] at hb1
    exact hb1.symm
  subst hr1
  have hoa : h4.objs a = some ob1' := by rw [o4 a (Ne.symm hta), o3 a hac, o2 a (Ne.symm hta), o1, update_self]
  refine ⟨h4, ob1, hof, ?_, r4, shares_symm s4, ?_⟩
  · unfold World.init
    rw [hrun]
    simp only
    rw [hoa, Option.map_some, d1']
  · rw [o4 f (Ne.symm htf), o3 f hfc, o2 f (Ne.symm htf), o1, update_of_ne hfa]

/-- the program goes on -/
theorem later_inv {f g : ℕ} {W W' : World T n} (h : Later o lazy f g W W') (hr : Reach o lazy W.heap) (hs : Shares W.heap f g) :
    Reach o lazy W'.heap ∧ Shares W'.heap f g := by
  induction h with
  | refl => exact ⟨hr, hs⟩
  | @step W1 W2 act h hl ha ih =>
    obtain ⟨ir, is⟩ := ih
    cases act with
    | grid op =>
      obtain ⟨h1, h2, h3⟩ := hl
      unfold World.act at ha
      simp only at ha
      rcases hst : step o lazy W1.heap op with e | h'
      · rw [hst] at ha; cases ha
      · rw [hst] at ha
        simp only [Option.some.injEq] at ha
        subst ha
        exact ⟨.step ir h1 hst, (C09_sharing_persists o lazy _ _ ir op h1 hst f g h2 h3).2 is⟩
    | set x p v =>
      unfold World.act at ha
      simp only [Option.map_eq_some_iff] at ha
      obtain ⟨k, -, rfl⟩ := ha
      exact ⟨ir, is⟩

/-- grids that share data are the same grid -/
theorem grid_shared {W : World T n} (hr : Reach o lazy W.heap) {f g : ℕ} (hs : Shares W.heap f g) :
    (∀ p, W.get o g p = W.get o f p) ∧ W.grid o g = W.grid o f ∧ ∀ r, HasRange W f r ↔ HasRange W g r := by
  obtain ⟨of, og, h1, h2, h3⟩ := hs
  obtain ⟨s1, s2, s3⟩ := (reach_inv hr).share f g of og h1 h2 h3
  refine ⟨fun p => ?_, ?_, fun r => ?_⟩
  · simp only [World.get, access, h1, h2, s1, s3]
  · simp only [World.grid, h1, h2, Option.bind_some, h3, s1, s2]
  · simp only [HasRange, h1, h2, Option.some.injEq]
    constructor <;> rintro ⟨ob, rfl, rfl⟩
    · exact ⟨_, rfl, s1.symm⟩
    · exact ⟨_, rfl, s1⟩

/-- the grid as `writeGrid` sees it -/
theorem grid_spec {W : World T n} (hr : Reach o lazy W.heap) {f : ℕ} {r : Range (n + 1)} (hs : Sized o W f r) :
    ∃ b ob rec, W.heap.objs f = some ob ∧ ob.range = r ∧ W.heap.recs ob.data = some rec ∧ rec.ptr = some b ∧
      W.grid o f = some ⟨o, r, (List.range ob.size).map (W.mem b)⟩ ∧ Usable (⟨o, r, (List.range ob.size).map (W.mem b)⟩ : Grid T n) ∧
      ∀ p, InBox r.lo r.hi p → access o W.heap f p = some (b, Storage.slot o r p) ∧ Storage.slot o r p < ob.size := by
  have hinv := reach_inv hr
  obtain ⟨ob, hob, rfl⟩ := hs.range
  obtain ⟨rec, hrec, -⟩ := hinv.obj_rec f ob hob
  have hsh := hinv.shape f ob rec hob hrec
  obtain ⟨p0, x0, h0⟩ := hs.storage
  rcases hp : rec.ptr with _ | b
  · rw [hp] at hsh
    simp only [World.get, access, hob, hsh.2.2] at h0
    cases h0
  rw [hp] at hsh
  obtain ⟨cap, c1, c2, c3, c4, -⟩ := hsh
  have hsize : (ob.size : ℤ) = ∏ i, extent ob.range.lo ob.range.hi i := by
    rw [c2]; exact (C04_c_order_bijection ob.range hs.nonempty hs.fits).2
  have hu : Usable (⟨o, ob.range, (List.range ob.size).map (W.mem b)⟩ : Grid T n) :=
    ⟨hs.nonempty, hs.fits, by unfold Grid.WF; simpa using c2⟩
  refine ⟨b, ob, rec, hob, rfl, hrec, hp, ?_, hu, fun p hin => ?_⟩
  · simp only [World.grid, hob, Option.bind_some, hrec, hp, Option.map_some]
  · have hsz : ob.size ≠ 0 := by
      intro h0
      have : (Storage.slot .c ob.range p : ℤ) < ∏ i, extent ob.range.lo ob.range.hi i :=
        (C04_c_order_bijection ob.range hs.nonempty hs.fits).1.1 hin
      omega
    obtain ⟨b', rec', e1, e2, e3⟩ := access_eq hinv hob hsz hs.fits hin
    rw [hrec, Option.some.injEq] at e1
    subst e1
    rw [hp, Option.some.injEq] at e2
    subst e2
    refine ⟨e3, ?_⟩
    obtain ⟨v, hv⟩ := C07_read_defined _ hu p hin
    unfold Grid.get? at hv
    have := (List.getElem?_eq_some_iff.mp hv).1
    simpa using this

theorem grid_get {W : World T n} (hr : Reach o lazy W.heap) {f : ℕ} {r : Range (n + 1)} (hs : Sized o W f r) :
    ∃ g, W.grid o f = some g ∧ g.order = o ∧ g.range = r ∧ Usable g ∧ ∀ p, InBox r.lo r.hi p → g.get? p = W.get o f p := by
  obtain ⟨b, ob, rec, h1, h2, h3, h4, h5, h6, h7⟩ := grid_spec hr hs
  refine ⟨_, h5, rfl, rfl, h6, fun p hp => ?_⟩
  obtain ⟨a1, a2⟩ := h7 p hp
  simp only [Grid.get?, World.get, a1, Option.map_some]
  rw [List.getElem?_map, List.getElem?_range a2]
  rfl

/-- `readGrid` changes only the elements -/
theorem read_grid {D : Hdf.Dataset (n + 1) T} {c c' : Hdf.Container T n} (h : Hdf.read D c = .ok c') :
    ∃ buf, c' = { c with grid := { c.grid with buf := buf } } := by
  unfold Hdf.read at h
  simp only at h
  split at h
  · cases h
  split at h
  · cases h
  split at h
  · cases h
  · cases h
    exact ⟨_, rfl⟩

end Schnek.Lemma.HdfField
