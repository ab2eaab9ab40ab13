import Verif.Lemma.Allocation
import Verif.Props.Storage

/-!
# C09 - C11: sharing, lifetime and capacity of grid memory
-/

namespace Schnek.Props

open Schnek Schnek.Spec Schnek.Lemma Schnek.Alloc Schnek.Lemma.Alloc Function

variable {n : ℕ}

/-- The restriction on assignments under which the three properties hold (the findings below show
that they fail without it): `a = b` is allowed if `a` and `b` already share data, or if no other live
grid shares `a`'s data. With the lazy policy `a` must in addition not remember a larger buffer than
`b` (for example `a` was default constructed). -/
def AssignOk (lazy : Bool) (h : Heap n) : Op n → Prop
  | .assign a b => ∀ oa ob, h.objs a = some oa → h.objs b = some ob →
      (Shares h a b ∨ ∀ x, Shares h x a → x = a) ∧ (lazy = true → oa.bufSize ≤ ob.bufSize)
  | _ => True

/-- The states reached by histories of any length of construct / copy / assign / resize / destroy
operations on any number of grids, with restricted assignments. -/
inductive Reach (o : Order) (lazy : Bool) : Heap n → Prop
  | empty : Reach o lazy Heap.empty
  | step {h h' : Heap n} {op : Op n} : Reach o lazy h → AssignOk lazy h op →
      Alloc.step o lazy h op = .ok h' → Reach o lazy h'

private theorem safeOp {lazy : Bool} {h : Heap n} {op : Op n} (hok : AssignOk lazy h op) :
    SafeOp lazy h op := by
  cases op with
  | assign a b =>
    intro oa ob ha hb
    obtain ⟨h1, h2⟩ := hok oa ob ha hb
    refine ⟨?_, h2⟩
    rcases h1 with ⟨oa', ob', e1, e2, e3⟩ | h1
    · rw [ha] at e1; rw [hb] at e2; cases e1; cases e2
      exact Or.inl e3
    · exact Or.inr (fun x ox hx hd => h1 x ⟨ox, oa, hx, ha, hd⟩)
  | construct => trivial
  | copy => trivial
  | resize => trivial
  | destroy => trivial

theorem reach_inv {o : Order} {lazy : Bool} {h : Heap n} (hr : Reach o lazy h) : Inv o lazy h := by
  induction hr with
  | empty => exact inv_empty o lazy
  | step hr hok hs ih =>
    rcases step_inv ih _ (safeOp hok) with he | ⟨h', e1, e2⟩
    · rw [he] at hs; cases hs
    · rw [e1] at hs; cases hs; exact e2

theorem access_eq {o : Order} {lazy : Bool} {h : Heap n} (hinv : Inv o lazy h) {x : ℕ} {ob : Obj n}
    (hx : h.objs x = some ob) (hsz : ob.size ≠ 0)
    (hfit : ∏ i, extent ob.range.lo ob.range.hi i < 2 ^ 64)
    {p : Idx (n + 1)} (hp : InBox ob.range.lo ob.range.hi p) :
    ∃ b rec, h.recs ob.data = some rec ∧ rec.ptr = some b ∧
      access o h x p = some (b, Storage.slot o ob.range p) := by
  obtain ⟨rec, hrec, _⟩ := hinv.obj_rec x ob hx
  have hs := hinv.shape x ob rec hx hrec
  cases hptr : rec.ptr with
  | none => rw [hptr] at hs; exact absurd hs.1 hsz
  | some b =>
    rw [hptr] at hs
    obtain ⟨cap, c1, c2, c3, c4, _⟩ := hs
    have hne : ∀ i, ob.range.lo i ≤ ob.range.hi i := fun i => (hp i).1.trans (hp i).2
    have hb : (Storage.slot o ob.range p : ℤ) < ∏ i, extent ob.range.lo ob.range.hi i ∧
        ((Storage.size ob.range).val : ℤ) = ∏ i, extent ob.range.lo ob.range.hi i := by
      cases o with
      | c => exact ⟨(C04_c_order_bijection ob.range hne hfit).1.1 hp, (C04_c_order_bijection ob.range hne hfit).2⟩
      | fortran => exact ⟨(C05_fortran_order_bijection ob.range hne hfit).1.1 hp,
          (C05_fortran_order_bijection ob.range hne hfit).2⟩
    refine ⟨b, rec, hrec, hptr, ?_⟩
    have hk : (ob.fast.2 + posOff o ob.range p).val = Storage.slot o ob.range p := by
      rw [c4]
      cases o with
      | c => rfl
      | fortran => rfl
    simp only [access, hx, c4, c1]
    rw [c4] at hk
    simp only at hk
    rw [hk, if_pos]
    omega

/-- **C09** (partial: histories whose assignments satisfy `AssignOk`). In every reachable state
* live grids that share data have the same range,
* every in-range access to a live grid that has storage (`size ≠ 0`: a default constructed grid has
  none, see the finding below) is defined, i.e. inside of its allocated buffer,
* grids that share data access the same element, grids that do not access different elements,
* different in-range indices access different elements. -/
theorem C09_shape_matches_buffer_partial (o : Order) (lazy : Bool) (h : Heap n) (hr : Reach o lazy h)
    {x y : ℕ} {ox oy : Obj n} (hx : h.objs x = some ox) (hy : h.objs y = some oy) :
    (Shares h x y → ox.range = oy.range) ∧
    (ox.size ≠ 0 → ∏ i, extent ox.range.lo ox.range.hi i < 2 ^ 64 →
      ∀ p, InBox ox.range.lo ox.range.hi p →
        (access o h x p).isSome ∧
        (Shares h x y → access o h y p = access o h x p) ∧
        (¬ Shares h x y → ∀ q, access o h y q ≠ access o h x p ∨ oy.size = 0 ∨
          ¬ InBox oy.range.lo oy.range.hi q ∨ ¬ ∏ i, extent oy.range.lo oy.range.hi i < 2 ^ 64) ∧
        (∀ q, InBox ox.range.lo ox.range.hi q → access o h x q = access o h x p → q = p)) := by
  have hinv := reach_inv hr
  have hsh : Shares h x y → ox.data = oy.data := by
    rintro ⟨ox', oy', e1, e2, e3⟩
    rw [hx] at e1; rw [hy] at e2; cases e1; cases e2; exact e3
  refine ⟨fun hs => (hinv.share x y ox oy hx hy (hsh hs)).1, fun hsz hfit p hp => ?_⟩
  obtain ⟨b, rec, e1, e2, e3⟩ := access_eq hinv hx hsz hfit hp
  refine ⟨by rw [e3]; rfl, fun hs => ?_, fun hns q => ?_, fun q hq haq => ?_⟩
  · obtain ⟨s1, s2, s3⟩ := hinv.share x y ox oy hx hy (hsh hs)
    simp only [access, hx, hy, s1, s3]
  · by_cases h1 : oy.size = 0
    · exact Or.inr (Or.inl h1)
    by_cases h2 : InBox oy.range.lo oy.range.hi q
    swap
    · exact Or.inr (Or.inr (Or.inl h2))
    by_cases h3 : ∏ i, extent oy.range.lo oy.range.hi i < 2 ^ 64
    swap
    · exact Or.inr (Or.inr (Or.inr h3))
    left
    obtain ⟨b', rec', f1, f2, f3⟩ := access_eq hinv hy h1 h3 h2
    rw [e3, f3]
    intro hc
    have hbb : b' = b := by simpa using congrArg (fun z => z.map Prod.fst) hc
    subst hbb
    exact hns ⟨ox, oy, hx, hy, hinv.ptr_inj _ _ rec rec' b' e1 f1 e2 f2⟩
  · obtain ⟨b', rec', f1, f2, f3⟩ := access_eq hinv hx hsz hfit hq
    rw [e3, f3] at haq
    have hne : ∀ i, ox.range.lo i ≤ ox.range.hi i := fun i => (hp i).1.trans (hp i).2
    have hk : Storage.slot o ox.range q = Storage.slot o ox.range p := by
      simpa using congrArg (fun z => z.map Prod.snd) haq
    cases o with
    | c => exact (C04_c_order_bijection ox.range hne hfit).1.2.1 hq hp hk
    | fortran => exact (C05_fortran_order_bijection ox.range hne hfit).1.2.1 hq hp hk

/-- **C09** copies and assignments make the two grids share data. -/
theorem C09_copy_and_assign_share (o : Order) (lazy : Bool) (h h' : Heap n) (hr : Reach o lazy h) (a b : ℕ)
    (hs : step o lazy h (.copy a b) = .ok h' ∨
      (AssignOk lazy h (.assign a b) ∧ step o lazy h (.assign a b) = .ok h')) :
    Shares h' a b := by
  have hinv := reach_inv hr
  rcases hs with hs | ⟨hok, hs⟩
  · cases ha : h.objs a with
    | some _ => simp [step, ha] at hs
    | none =>
      cases hb : h.objs b with
      | none => simp [step, ha, hb] at hs
      | some ob =>
        obtain ⟨rec, hrec, _⟩ := hinv.obj_rec b ob hb
        simp only [step, ha, hb, hrec] at hs
        cases hs
        have : b ≠ a := by rintro rfl; rw [ha] at hb; cases hb
        exact ⟨ob, ob, by simp [Heap.setObj, Heap.setRec], by simp [Heap.setObj, Heap.setRec, this, hb], rfl⟩
  · cases ha : h.objs a with
    | none => simp [step, ha] at hs
    | some oa =>
      cases hb : h.objs b with
      | none => simp [step, ha, hb] at hs
      | some ob =>
        obtain ⟨rec, hrec, _⟩ := hinv.obj_rec b ob hb
        have key : h'.objs = update h.objs a (some { ob with bufSize := oa.bufSize }) := by
          simp only [step, ha, hb, hrec] at hs
          by_cases hd : oa.data = ob.data
          · rw [if_pos hd] at hs; cases hs; rfl
          · rw [if_neg hd] at hs
            exact release_objs hs
        have h1 : h'.objs a = some { ob with bufSize := oa.bufSize } := by rw [key]; simp
        by_cases hab : b = a
        · subst hab; exact ⟨_, _, h1, h1, rfl⟩
        · exact ⟨_, ob, h1, by rw [key, update_of_ne hab, hb], rfl⟩

/-- the grid whose binding an operation changes -/
def rebinds : Op n → ℕ → Prop
  | .construct a, x => x = a
  | .copy a _, x => x = a
  | .assign a _, x => x = a
  | .resize _ _ _ _, _ => False
  | .destroy a, x => x = a

/-- **C09** sharing persists: only rebinding one of the two grids ends it. -/
theorem C09_sharing_persists (o : Order) (lazy : Bool) (h h' : Heap n) (hr : Reach o lazy h) (op : Op n)
    (hok : AssignOk lazy h op) (hs : step o lazy h op = .ok h') (x y : ℕ)
    (hx : ¬ rebinds op x) (hy : ¬ rebinds op y) : Shares h' x y ↔ Shares h x y := by
  have hinv := reach_inv hr
  have key : ∀ z, ¬ rebinds op z → (h'.objs z).map Obj.data = (h.objs z).map Obj.data :=
    fun z hz => step_data hinv hs (by
      cases op with
      | construct => exact hz
      | copy => exact hz
      | assign => exact hz
      | resize => trivial
      | destroy => exact hz)
  have iff : ∀ g : Heap n, Shares g x y ↔ ∃ d, (g.objs x).map Obj.data = some d ∧ (g.objs y).map Obj.data = some d := by
    intro g
    constructor
    · rintro ⟨ox, oy, e1, e2, e3⟩
      exact ⟨ox.data, by rw [e1]; rfl, by rw [e2, e3]; rfl⟩
    · rintro ⟨d, e1, e2⟩
      rw [Option.map_eq_some_iff] at e1 e2
      obtain ⟨ox, f1, f2⟩ := e1
      obtain ⟨oy, g1, g2⟩ := e2
      exact ⟨ox, oy, f1, g1, f2.trans g2.symm⟩
  rw [iff h', iff h, key x hx, key y hy]

/-- **C09** after `a.resize(r)` every grid sharing data with `a` has range `r` and has storage for it;
all other grids keep their shape. -/
theorem C09_resize (o : Order) (lazy : Bool) (h : Heap n) (hr : Reach o lazy h) (a : ℕ) (oa : Obj n)
    (ha : h.objs a = some oa) (r : Range (n + 1)) (shrink : Bool) (slack : ℕ) :
    ∃ h', step o lazy h (.resize a r shrink slack) = .ok h' ∧
      (∀ x, Shares h x a → ∃ ob, h'.objs x = some ob ∧ ob.range = r ∧
        ((∀ i, r.lo i ≤ r.hi i) → ∏ i, extent r.lo r.hi i < 2 ^ 64 →
          (ob.size : ℤ) = ∏ i, extent r.lo r.hi i)) ∧
      (∀ x ox, h.objs x = some ox → ¬ Shares h x a → h'.objs x = some ox) := by
  obtain ⟨h', e1, e2, e3, e4, _⟩ := resize_inv (reach_inv hr) ha r shrink slack
  refine ⟨h', e1, ?_, ?_⟩
  · rintro x ⟨ox, oa', f1, f2, f3⟩
    rw [ha] at f2; cases f2
    obtain ⟨oy, g1, g2, g3, g4⟩ := e3 x ox f1 f3
    exact ⟨oy, g1, g3, fun hne hfit => by rw [g4]; exact (C04_c_order_bijection r hne hfit).2⟩
  · intro x ox hx hns
    exact e4 x ox hx (fun hd => hns ⟨ox, oa, hx, ha, hd⟩)

/-- **C09** a buffer that stays allocated in a resize keeps its number of elements. -/
theorem C09_resize_keeps_capacity (o : Order) (lazy : Bool) (h h' : Heap n) (hr : Reach o lazy h) (a : ℕ)
    (r : Range (n + 1)) (shrink : Bool) (slack : ℕ) (hs : step o lazy h (.resize a r shrink slack) = .ok h')
    (b c c' : ℕ) (hb : h.bufs b = .live c) (hb' : h'.bufs b = .live c') : c' = c := by
  cases ha : h.objs a with
  | none => simp [step, ha] at hs
  | some oa => exact resize_keeps_cap (reach_inv hr) ha hs hb hb'

/-- Assigning to a freshly constructed grid (`Grid a; a = b;`) is always allowed. -/
theorem C09_assign_to_fresh_allowed (o : Order) (lazy : Bool) (h h' : Heap n) (hr : Reach o lazy h)
    (a b : ℕ) (hs : step o lazy h (.construct a) = .ok h') : AssignOk lazy h' (.assign a b) := by
  have hinv := reach_inv hr
  cases ha : h.objs a with
  | some _ => simp [step, ha] at hs
  | none =>
    simp only [step, ha] at hs
    cases hs
    intro oa ob hoa hob
    simp only [Heap.setObj, Heap.setRec, update_self, Option.some.injEq] at hoa
    refine ⟨Or.inr ?_, fun _ => by rw [← hoa]; exact Nat.zero_le _⟩
    rintro x ⟨ox, oa', e1, e2, e3⟩
    simp only [Heap.setObj, Heap.setRec, update_self, Option.some.injEq] at e2
    by_contra hxa
    simp only [Heap.setObj, Heap.setRec, update_of_ne hxa] at e1
    obtain ⟨rec, f1, _⟩ := hinv.obj_rec x ox e1
    rw [e3, ← e2] at f1
    simp only at f1
    rw [hinv.fresh_rec _ le_rfl] at f1
    cases f1

private theorem run_reach {o : Order} {lazy : Bool} (ops : List (Op n)) (hops : ∀ op ∈ ops, ∀ a b, op ≠ .assign a b) :
    ∀ h h' : Heap n, Reach o lazy h → run o lazy h ops = .ok h' → Reach o lazy h' := by
  induction ops with
  | nil =>
    intro h h' hr hs
    cases hs; exact hr
  | cons op ops ih =>
    intro h h' hr hs
    simp only [run, List.foldlM_cons] at hs
    cases h1 : step o lazy h op with
    | error e => rw [h1] at hs; cases hs
    | ok h1' =>
      rw [h1] at hs
      refine ih (fun op' h' => hops op' (by simp [h'])) h1' h' (.step hr ?_ h1) hs
      cases op with
      | assign a b => exact absurd rfl (hops (.assign a b) (by simp) a b)
      | construct => trivial
      | copy => trivial
      | resize => trivial
      | destroy => trivial

/-- Histories without assignments (of any length) are all covered. -/
theorem C09_histories_without_assignment_reach (o : Order) (lazy : Bool) (ops : List (Op n))
    (hops : ∀ op ∈ ops, ∀ a b, op ≠ .assign a b) (h : Heap n)
    (hs : run o lazy Heap.empty ops = .ok h) : Reach o lazy h :=
  run_reach ops hops _ _ .empty hs

/-- evaluate a history and test the final state -/
def runTest (o : Order) (lazy : Bool) (ops : List (Op n)) (t : Heap n → Bool) : Bool :=
  match run o lazy Heap.empty ops with
  | .ok h => t h
  | .error _ => false

theorem runTest_iff {o : Order} {lazy : Bool} {ops : List (Op n)} {t : Heap n → Bool} :
    runTest o lazy ops t = true ↔ ∃ h, run o lazy Heap.empty ops = .ok h ∧ t h = true := by
  unfold runTest
  cases run o lazy Heap.empty ops with
  | ok h => exact ⟨fun ht => ⟨h, rfl, ht⟩, fun ⟨h', e, ht⟩ => by cases e; exact ht⟩
  | error e => simp

/-- non-vacuity: a reachable state in which two grids share 20 elements, one of which was resized
through its copy, and a third grid has been destroyed -/
example : ∃ h : Heap 0, Reach .c false h ∧ (h.objs 1).map (·.size) = some 20 ∧
    access .c h 1 ![14] = some (1, 19) ∧ access .c h 2 ![14] = some (1, 19) ∧ h.objs 3 = none := by
  have ht : runTest (n := 0) .c false [.construct 1, .resize 1 ⟨![0], ![9]⟩ false 0, .copy 2 1, .copy 3 2,
      .resize 2 ⟨![-5], ![14]⟩ false 0, .destroy 3] (fun h => decide ((h.objs 1).map (·.size) = some 20) &&
        decide (access .c h 1 ![14] = some (1, 19)) && decide (access .c h 2 ![14] = some (1, 19)) &&
        (h.objs 3).isNone) = true := by decide
  obtain ⟨h, h1, h2⟩ := runTest_iff.mp ht
  refine ⟨h, C09_histories_without_assignment_reach .c false _ (by simp) h h1, ?_⟩
  simpa [and_assoc] using h2

/-- **C09** FINDING: without the restriction the property fails. `c` (10 cells) is copied to `a`; `a` is
then re-assigned to `b` (20 cells), so `a` and `b` share data; `c.resize(0..99)` still updates `a`: `a`
and `b` disagree about their range, and the in-range element `a[50]` is outside of the buffer. -/
theorem C09_violated_assignment_keeps_old_share : ∃ h : Heap 0,
    run .c false Heap.empty [.construct 3, .resize 3 ⟨![0], ![9]⟩ false 0, .copy 1 3,
      .construct 2, .resize 2 ⟨![0], ![19]⟩ false 0, .assign 1 2,
      .resize 3 ⟨![0], ![99]⟩ false 0] = .ok h ∧
    (∃ oa ob, h.objs 1 = some oa ∧ h.objs 2 = some ob ∧ oa.data = ob.data ∧
      oa.range.hi 0 = 99 ∧ ob.range.hi 0 = 19 ∧ InBox oa.range.lo oa.range.hi ![50] ∧
      access .c h 1 ![50] = none) := by
  have ht : runTest (n := 0) .c false [.construct 3, .resize 3 ⟨![0], ![9]⟩ false 0, .copy 1 3,
      .construct 2, .resize 2 ⟨![0], ![19]⟩ false 0, .assign 1 2,
      .resize 3 ⟨![0], ![99]⟩ false 0] (fun h =>
        match h.objs 1, h.objs 2 with
        | some oa, some ob => decide (oa.data = ob.data) && decide (oa.range.lo 0 = 0) &&
            decide (oa.range.hi 0 = 99) && decide (ob.range.hi 0 = 19) && decide (access .c h 1 ![50] = none)
        | _, _ => false) = true := by decide
  obtain ⟨h, h1, h2⟩ := runTest_iff.mp ht
  refine ⟨h, h1, ?_⟩
  cases ha : h.objs 1 with
  | none => simp [ha] at h2
  | some oa =>
    cases hb : h.objs 2 with
    | none => simp [ha, hb] at h2
    | some ob =>
      simp [ha, hb, and_assoc] at h2
      obtain ⟨e1, e2, e3, e4, e5⟩ := h2
      refine ⟨oa, ob, rfl, rfl, e1, e3, e4, ?_, e5⟩
      intro i
      obtain rfl : i = 0 := Fin.fin_one_eq_zero i
      rw [e2, e3]; decide

/-- **C09** FINDING: a default constructed grid reports the range `0..0` (one cell) but has no memory:
accessing its only element is undefined. -/
theorem C09_violated_default_grid_has_no_storage : ∃ h : Heap n,
    run .c false Heap.empty [.construct 1] = .ok h ∧
    ∃ oa, h.objs 1 = some oa ∧ InBox oa.range.lo oa.range.hi (fun _ => 0) ∧
      access .c h 1 (fun _ => 0) = none := by
  refine ⟨_, rfl, ⟨0, 0, Range.default0 _, 0, (none, 0)⟩, ?_, ?_, ?_⟩
  · simp [Heap.setObj, Heap.setRec, Heap.empty]
  · intro i; simp [Range.default0]
  · simp [access, Heap.setObj, Heap.setRec, Heap.empty]

/-- **C10** (partial: histories whose assignments satisfy `AssignOk`). No operation on live grids ends in
a double `delete[]`, a callback of a destroyed grid or an access to a destroyed share record: it is
carried out, and in the resulting state
* a grid never refers to a deleted buffer: its buffer, if it has one, is allocated,
* every allocated buffer is the buffer of some live grid (no leak). -/
theorem C10_memory_safe_partial (o : Order) (lazy : Bool) (h : Heap n) (hr : Reach o lazy h) :
    (∀ op, AssignOk lazy h op → step o lazy h op = .error .invalid ∨ ∃ h', step o lazy h op = .ok h') ∧
    (∀ x ob b, h.objs x = some ob → ob.fast.1 = some b → ∃ cap, h.bufs b = .live cap) ∧
    (∀ b cap, h.bufs b = .live cap → ∃ x ob, h.objs x = some ob ∧ ob.fast.1 = some b) := by
  have hinv := reach_inv hr
  refine ⟨fun op hok => ?_, ?_, ?_⟩
  · rcases step_inv hinv op (safeOp hok) with he | ⟨h', e1, _⟩
    · exact Or.inl he
    · exact Or.inr ⟨h', e1⟩
  · intro x ob b hx hb
    obtain ⟨rec, hrec, _⟩ := hinv.obj_rec x ob hx
    have hs := hinv.shape x ob rec hx hrec
    cases hp : rec.ptr with
    | none => rw [hp] at hs; rw [hs.2.2] at hb; cases hb
    | some b' =>
      rw [hp] at hs
      obtain ⟨cap, c1, _, _, c4, _⟩ := hs
      rw [c4] at hb; cases hb
      exact ⟨cap, c1⟩
  · intro b cap hb
    obtain ⟨d, rec, e1, e2⟩ := hinv.owner b cap hb
    obtain ⟨x, hx⟩ := List.exists_mem_of_ne_nil _ (hinv.holder_ne d rec e1)
    rcases hinv.holder d rec e1 x hx with hf | ⟨ob, f1, f2⟩
    · exact hf.elim
    · have hs := hinv.shape x ob rec f1 (by rw [f2]; exact e1)
      rw [e2] at hs
      obtain ⟨_, _, _, _, c4, _⟩ := hs
      exact ⟨x, ob, f1, by rw [c4]⟩

/-- the operation uses only live grids, and constructs only where there is none -/
def ValidOp (h : Heap n) : Op n → Prop
  | .construct a => h.objs a = none
  | .copy a b => h.objs a = none ∧ h.objs b ≠ none
  | .assign a b => h.objs a ≠ none ∧ h.objs b ≠ none
  | .resize a _ _ _ => h.objs a ≠ none
  | .destroy a => h.objs a ≠ none

/-- **C10** the operations that are reported as invalid are exactly the ones that use a dead grid or
construct a grid at the address of a live one. -/
theorem C10_valid_operations_succeed_partial (o : Order) (lazy : Bool) (h : Heap n) (hr : Reach o lazy h)
    (op : Op n) (hok : AssignOk lazy h op) :
    (∃ h', step o lazy h op = .ok h') ↔
      ValidOp h op := by
  have hinv := reach_inv hr
  constructor
  · rintro ⟨h', hs⟩
    cases op with
    | construct a =>
      cases ha : h.objs a with
      | none => exact ha
      | some _ => simp [step, ha] at hs
    | copy a b =>
      cases ha : h.objs a with
      | some _ => simp [step, ha] at hs
      | none =>
        cases hb : h.objs b with
        | none => simp [step, ha, hb] at hs
        | some _ => simp [ValidOp, *]
    | assign a b =>
      cases ha : h.objs a with
      | none => simp [step, ha] at hs
      | some _ =>
        cases hb : h.objs b with
        | none => simp [step, ha, hb] at hs
        | some _ => simp [ValidOp, *]
    | resize a =>
      cases ha : h.objs a with
      | none => simp [step, ha] at hs
      | some _ => simp [ValidOp, *]
    | destroy a =>
      cases ha : h.objs a with
      | none => simp [step, ha] at hs
      | some _ => simp [ValidOp, *]
  · intro hv
    cases op with
    | construct a =>
      obtain ⟨h', e, _⟩ := construct_inv (o := o) hinv hv
      exact ⟨h', e⟩
    | copy a b =>
      obtain ⟨ha, hb⟩ := hv
      obtain ⟨ob, hb⟩ := Option.ne_none_iff_exists'.mp hb
      obtain ⟨rec, hrec, _⟩ := hinv.obj_rec b ob hb
      exact ⟨_, by simp only [step, ha, hb, hrec]; rfl⟩
    | assign a b =>
      obtain ⟨oa, ha⟩ := Option.ne_none_iff_exists'.mp hv.1
      obtain ⟨ob, hb⟩ := Option.ne_none_iff_exists'.mp hv.2
      obtain ⟨h', e, _⟩ := assign_inv hinv ha hb (safeOp hok)
      exact ⟨h', e⟩
    | resize a r s k =>
      obtain ⟨oa, ha⟩ := Option.ne_none_iff_exists'.mp hv
      obtain ⟨h', e, _⟩ := resize_inv hinv ha r s k
      exact ⟨h', e⟩
    | destroy a =>
      obtain ⟨oa, ha⟩ := Option.ne_none_iff_exists'.mp hv
      obtain ⟨h', e, _⟩ := destroy_inv hinv ha
      exact ⟨h', e⟩

/-- **C10** FINDING: re-assigning a grid leaves its callback registered with the old data. When the grid is
destroyed, the next resize of the old data calls into the destroyed object. -/
theorem C10_violated_callback_of_destroyed_grid :
    run (n := 0) .c false Heap.empty [.construct 3, .copy 1 3, .construct 2, .assign 1 2, .destroy 1,
      .resize 3 ⟨![0], ![9]⟩ false 0] = .error .deadCallback := by rfl

/-- **C11** (partial: assignments satisfy `AssignOk`). With the lazy policy, whatever the running
statistics decide (`shrink` and `slack` of every resize are arbitrary), the buffer of every live grid has
at least as many elements as the grid has cells; and `a.resize(r)` with `r` larger than the current
buffer moves to a different buffer. -/
theorem C11_lazy_capacity_partial (o : Order) (h : Heap n) (hr : Reach o true h) (x : ℕ) (ob : Obj n)
    (hx : h.objs x = some ob) :
    (match ob.fast.1 with
      | none => ob.size = 0
      | some b => ∃ cap, h.bufs b = .live cap ∧ ob.size ≤ cap ∧ ob.size = (Storage.size ob.range).val) ∧
    (∀ b cap r shrink slack h', ob.fast.1 = some b → h.bufs b = .live cap →
      cap < (Storage.size r).val → step o true h (.resize x r shrink slack) = .ok h' →
      ∃ ob' b' cap', h'.objs x = some ob' ∧ ob'.fast.1 = some b' ∧ b' ≠ b ∧ h'.bufs b' = .live cap' ∧
        (Storage.size r).val ≤ cap') := by
  have key : ∀ (h : Heap n), Inv o true h → ∀ (ob : Obj n), h.objs x = some ob → match ob.fast.1 with
      | none => ob.size = 0
      | some b => ∃ cap, h.bufs b = .live cap ∧ ob.size ≤ cap ∧ ob.size = (Storage.size ob.range).val := by
    intro h hinv ob hx
    obtain ⟨rec, hrec, _⟩ := hinv.obj_rec x ob hx
    have hs := hinv.shape x ob rec hx hrec
    cases hp : rec.ptr with
    | none => rw [hp] at hs; rw [hs.2.2]; exact hs.1
    | some b' =>
      rw [hp] at hs
      obtain ⟨cap, c1, c2, c3, c4, _⟩ := hs
      rw [c4]; exact ⟨cap, c1, c3, c2⟩
  refine ⟨key h (reach_inv hr) ob hx, ?_⟩
  intro b cap r shrink slack h' hb hcap hlt hs
  have hmoved : ∃ ob' b' cap', h'.objs x = some ob' ∧ ob'.fast.1 = some b' ∧ h'.bufs b' = .live cap' ∧
      (Storage.size r).val ≤ cap' := by
    obtain ⟨h'', e1, e2, e3, _⟩ := resize_inv (reach_inv hr) hx r shrink slack
    rw [e1] at hs; cases hs
    obtain ⟨oy, f1, f2, f3, f4⟩ := e3 x ob hx rfl
    have := key _ e2 oy f1
    cases hf : oy.fast.1 with
    | none => rw [hf] at this; simp only at this; omega
    | some b' =>
      rw [hf] at this
      obtain ⟨cap', c1, c2, _⟩ := this
      exact ⟨oy, b', cap', f1, hf, c1, by omega⟩
  obtain ⟨ob', b', cap', m1, m2, m3, m4⟩ := hmoved
  refine ⟨ob', b', cap', m1, m2, ?_, m3, m4⟩
  rintro rfl
  have := resize_keeps_cap (reach_inv hr) hx hs hcap m3
  omega

/-- **C11** FINDING: `operator=` shares the data but keeps the old buffer size. After assigning a small grid
to a grid that had a large buffer, a resize is not carried out on the buffer: the grid has 50 cells in
a buffer of 10 elements, and accessing cell 20 is out of bounds. -/
theorem C11_violated_assignment_keeps_buffer_size : ∃ h : Heap 0,
    run .c true Heap.empty [.construct 1, .resize 1 ⟨![0], ![99]⟩ false 0, .construct 2,
      .resize 2 ⟨![0], ![9]⟩ false 0, .assign 1 2, .resize 1 ⟨![0], ![49]⟩ false 0] = .ok h ∧
    ∃ ob b, h.objs 1 = some ob ∧ ob.fast.1 = some b ∧ ob.size = 50 ∧ h.bufs b = .live 10 ∧
      access .c h 1 ![20] = none := by
  have ht : runTest (n := 0) .c true [.construct 1, .resize 1 ⟨![0], ![99]⟩ false 0, .construct 2,
      .resize 2 ⟨![0], ![9]⟩ false 0, .assign 1 2, .resize 1 ⟨![0], ![49]⟩ false 0] (fun h =>
        match h.objs 1 with
        | some ob => match ob.fast.1 with
          | some b => decide (ob.size = 50) && decide (h.bufs b = .live 10) &&
            decide (access .c h 1 ![20] = none)
          | none => false
        | _ => false) = true := by decide
  obtain ⟨h, h1, h2⟩ := runTest_iff.mp ht
  refine ⟨h, h1, ?_⟩
  cases ha : h.objs 1 with
  | none => simp [ha] at h2
  | some ob =>
    cases hb : ob.fast.1 with
    | none => simp [ha, hb] at h2
    | some b =>
      simp [ha, hb, and_assoc] at h2
      exact ⟨ob, b, rfl, hb, h2⟩

/-- non-vacuity for C11: a lazily allocated grid that was shrunk without reallocation -/
example : ∃ h : Heap 0, Reach .c true h ∧ ∃ ob, h.objs 1 = some ob ∧ ob.size = 5 ∧
    h.bufs 0 = .live 107 ∧ ob.fast.1 = some 0 := by
  have ht : runTest (n := 0) .c true [.construct 1, .resize 1 ⟨![0], ![99]⟩ false 7,
      .resize 1 ⟨![0], ![4]⟩ false 3] (fun h =>
        match h.objs 1 with
        | some ob => decide (ob.size = 5) && decide (h.bufs 0 = .live 107) && decide (ob.fast.1 = some 0)
        | _ => false) = true := by decide
  obtain ⟨h, h1, h2⟩ := runTest_iff.mp ht
  refine ⟨h, C09_histories_without_assignment_reach .c true _ (by simp) h h1, ?_⟩
  cases ha : h.objs 1 with
  | none => simp [ha] at h2
  | some ob =>
    simp [ha, and_assoc] at h2
    exact ⟨ob, rfl, h2⟩

end Schnek.Props
