import Verif.Model.AllocationFailure
import Verif.Lemma.Allocation

/-!
# Lemmas about grids when memory runs out
-/

namespace Schnek.Lemma.Alloc

open Schnek Schnek.Alloc Schnek.Lemma Function

variable {n : ℕ}

/-- the same share records and buffers -/
structure SameMemory (h g : Heap n) : Prop where
  recs : h.recs = g.recs
  bufs : h.bufs = g.bufs
  nextRec : h.nextRec = g.nextRec
  nextBuf : h.nextBuf = g.nextBuf

/-- `g` is `h`, with other shapes for the grids that have no buffer -/
structure Mends (h g : Heap n) : Prop extends SameMemory h g where
  data : ∀ x, (h.objs x).map Obj.data = (g.objs x).map Obj.data
  same : ∀ x ob rec b, h.objs x = some ob → h.recs ob.data = some rec → rec.ptr = some b → g.objs x = some ob

theorem Mends.refl (h : Heap n) : Mends h h := ⟨⟨rfl, rfl, rfl, rfl⟩, fun _ => rfl, fun _ _ _ _ h _ _ => h⟩

theorem Mends.none {h g : Heap n} (m : Mends h g) {x : ℕ} : h.objs x = none ↔ g.objs x = none := by
  have := m.data x
  cases h1 : h.objs x <;> cases h2 : g.objs x <;> simp_all

theorem Mends.some {h g : Heap n} (m : Mends h g) {x : ℕ} {ob : Obj n} (hx : h.objs x = some ob) :
    ∃ og, g.objs x = some og ∧ og.data = ob.data := by
  have := m.data x
  rw [hx] at this
  cases h2 : g.objs x with
  | none => rw [h2] at this; cases this
  | some og => rw [h2] at this; exact ⟨og, rfl, (Option.some.inj this).symm⟩

theorem freeBuf_same {h g g' : Heap n} (m : SameMemory h g) {p : Option ℕ} (hs : freeBuf g p = .ok g') :
    ∃ h', freeBuf h p = .ok h' ∧ SameMemory h' g' ∧ h'.objs = h.objs ∧ g'.objs = g.objs ∧ h'.recs = h.recs := by
  cases p with
  | none => cases hs; exact ⟨h, rfl, m, rfl, rfl, rfl⟩
  | some b =>
    simp only [freeBuf, m.bufs] at hs ⊢
    cases hb : g.bufs b with
    | live c =>
      rw [hb] at hs
      cases hs
      exact ⟨_, rfl, ⟨m.recs, by simp [Heap.setBuf, m.bufs], m.nextRec, m.nextBuf⟩, rfl, rfl, rfl⟩
    | unused => rw [hb] at hs; cases hs
    | freed => rw [hb] at hs; cases hs

theorem release_same {h g g' : Heap n} (m : SameMemory h g) {a d : ℕ} (hs : release g a d = .ok g') :
    ∃ h', release h a d = .ok h' ∧ SameMemory h' g' ∧ h'.objs = h.objs ∧ g'.objs = g.objs ∧
      ∀ d' rec, h'.recs d' = some rec → ∃ rec0, h.recs d' = some rec0 ∧ rec0.ptr = rec.ptr := by
  simp only [release, m.recs] at hs ⊢
  cases hr : g.recs d with
  | none => rw [hr] at hs; cases hs
  | some rec =>
    rw [hr] at hs
    simp only at hs ⊢
    by_cases he : rec.holders.erase a = []
    · rw [if_pos he] at hs ⊢
      have m1 : SameMemory (h.setRec d none) (g.setRec d none) :=
        ⟨by simp [Heap.setRec, m.recs], m.bufs, m.nextRec, m.nextBuf⟩
      obtain ⟨h', e1, e2, e3, e4, e5⟩ := freeBuf_same m1 hs
      refine ⟨h', e1, e2, e3, e4, fun d' rec' hd' => ?_⟩
      rw [e5] at hd'
      simp only [Heap.setRec, update_apply, m.recs] at hd'
      by_cases hdd : d' = d
      · rw [if_pos hdd] at hd'; cases hd'
      · rw [if_neg hdd] at hd'
        exact ⟨rec', hd', rfl⟩
    · rw [if_neg he] at hs ⊢
      cases hs
      refine ⟨_, rfl, ⟨by simp [Heap.setRec, m.recs], m.bufs, m.nextRec, m.nextBuf⟩, rfl, rfl, fun d' rec' hd' => ?_⟩
      simp only [Heap.setRec, update_apply, m.recs] at hd'
      by_cases hdd : d' = d
      · rw [if_pos hdd] at hd'
        cases hd'
        exact ⟨rec, by rw [hdd, hr], rfl⟩
      · rw [if_neg hdd] at hd'
        exact ⟨rec', hd', rfl⟩

/-- the invariant does not depend on the sizes that grids remember for their buffers, as long as they are not too large -/
theorem inv_bufSize {o : Order} {lazy : Bool} {h g : Heap n} (hinv : Inv o lazy g) (m : SameMemory h g)
    (hobj : ∀ x ob, h.objs x = some ob → ∃ og, g.objs x = some og ∧ ob = { og with bufSize := ob.bufSize } ∧
      ∀ rec, g.recs og.data = some rec → lazy = true → (rec.ptr = none → ob.bufSize = 0) ∧
        ∀ b cap, rec.ptr = some b → g.bufs b = .live cap → ob.bufSize ≤ cap)
    (hdata : ∀ x og, g.objs x = some og → ∃ ob, h.objs x = some ob ∧ ob.data = og.data) : Inv o lazy h := by
  constructor
  · intro x ob hx
    obtain ⟨og, e1, e2, -⟩ := hobj x ob hx
    rw [m.recs, e2]
    exact hinv.obj_rec x og e1
  · intro d rec hr x hx
    rw [m.recs] at hr
    rcases hinv.holder d rec hr x hx with hf | ⟨og, e1, e2⟩
    · exact hf.elim
    · obtain ⟨ob, f1, f2⟩ := hdata x og e1
      exact Or.inr ⟨ob, f1, f2.trans e2⟩
  · intro d rec hr; rw [m.recs] at hr; exact hinv.holder_ne d rec hr
  · intro d rec hr; rw [m.recs] at hr; exact hinv.holder_nd d rec hr
  · intro d rec hr x hx
    rw [m.recs] at hr
    rcases hinv.upd d rec hr x hx with hf | ⟨og, e1, e2⟩
    · exact hf.1.elim
    · obtain ⟨ob, f1, f2⟩ := hdata x og e1
      exact Or.inr ⟨ob, f1, f2.trans e2⟩
  · intro d rec hr; rw [m.recs] at hr; exact hinv.upd_nd d rec hr
  · intro x ob rec hx hr
    obtain ⟨og, e1, e2, e3⟩ := hobj x ob hx
    rw [m.recs, e2] at hr
    have hs := hinv.shape x og rec e1 hr
    have hb := e3 rec hr
    rw [m.bufs]
    cases hp : rec.ptr with
    | none =>
      rw [hp] at hs
      obtain ⟨s1, -, s3⟩ := hs
      rw [e2]
      exact ⟨s1, fun hl => (hb hl).1 hp, s3⟩
    | some b =>
      rw [hp] at hs
      obtain ⟨cap, s1, s2, s3, s4, -⟩ := hs
      rw [e2]
      exact ⟨cap, s1, s2, s3, s4, fun hl => (hb hl).2 b cap hp s1⟩
  · intro x y ox oy hx hy hd
    obtain ⟨gx, e1, e2, -⟩ := hobj x ox hx
    obtain ⟨gy, f1, f2, -⟩ := hobj y oy hy
    rw [e2, f2] at hd ⊢
    exact hinv.share x y gx gy e1 f1 hd
  · intro d rec b hr hp; rw [m.recs] at hr; rw [m.bufs]; exact hinv.ptr_live d rec b hr hp
  · intro d d' rec rec' b hr hr'; rw [m.recs] at hr hr'; exact hinv.ptr_inj d d' rec rec' b hr hr'
  · intro b cap hb; rw [m.bufs] at hb; rw [m.recs]; exact hinv.owner b cap hb
  · intro d hd; rw [m.nextRec] at hd; rw [m.recs]; exact hinv.fresh_rec d hd
  · intro b hb; rw [m.nextBuf] at hb; rw [m.bufs]; exact hinv.fresh_buf b hb

/-- an empty range -/
def noCells (n : ℕ) : Range (n + 1) := ⟨fun _ => 0, fun _ => -1⟩

theorem size_noCells : (Storage.size (noCells n)).val = 0 := by
  have h : ∀ l : List (Fin (n + 1)), l.foldl (fun (s : Word) d => s * (Storage.dims (noCells n) d : Word)) 0 = 0 := by
    intro l
    induction l with
    | nil => rfl
    | cons d l ih => simpa using ih
  have hd : Storage.dims (noCells n) 0 = 0 := by simp [Storage.dims, noCells]
  rw [Storage.size, List.finRange_succ, List.foldl_cons, hd]
  simp [h]

/-- construct -/
theorem construct_mend {o : Order} {lazy : Bool} {h g : Heap n} (m : Mends h g) (hinv : Inv o lazy g) {a : ℕ}
    (ha : h.objs a = none) : ∃ h' g', step o lazy h (.construct a) = .ok h' ∧ Mends h' g' ∧ Inv o lazy g' := by
  obtain ⟨g', e1, e2⟩ := construct_inv (o := o) hinv (m.none.mp ha)
  simp only [step, m.none.mp ha] at e1
  simp only [step, ha]
  refine ⟨_, g', rfl, ?_, e2⟩
  cases e1
  refine ⟨⟨?_, m.bufs, ?_, m.nextBuf⟩, fun x => ?_, fun x ob rec b hx hr hp => ?_⟩
  · simp [Heap.setRec, Heap.setObj, m.recs, m.nextRec]
  · simp [m.nextRec]
  · simp only [Heap.setRec, Heap.setObj, update_apply]
    by_cases hxa : x = a
    · simp [hxa, m.nextRec]
    · simp [hxa, m.data x]
  · simp only [Heap.setRec, Heap.setObj, update_apply] at hx hr ⊢
    by_cases hxa : x = a
    · rw [if_pos hxa] at hx ⊢
      cases hx
      rw [m.nextRec]
    · rw [if_neg hxa] at hx ⊢
      by_cases hd : ob.data = h.nextRec
      · rw [if_pos hd] at hr
        cases hr
        cases hp
      · rw [if_neg hd] at hr
        exact m.same x ob rec b hx hr hp

/-- copy -/
theorem copy_mend {o : Order} {lazy : Bool} {h g : Heap n} (m : Mends h g) (hinv : Inv o lazy g) {a b : ℕ} {ob : Obj n}
    (ha : h.objs a = none) (hb : h.objs b = some ob) :
    ∃ h' g', step o lazy h (.copy a b) = .ok h' ∧ Mends h' g' ∧ Inv o lazy g' := by
  obtain ⟨og, hg, hd⟩ := m.some hb
  obtain ⟨rec, hrec, -⟩ := hinv.obj_rec b og hg
  have hrech : h.recs ob.data = some rec := by rw [m.recs, ← hd]; exact hrec
  simp only [step, ha, hb, hrech]
  have hi := copy_inv hinv (m.none.mp ha) hg hrec
  refine ⟨_, _, rfl, ?_, hi⟩
  refine ⟨⟨?_, m.bufs, m.nextRec, m.nextBuf⟩, fun x => ?_, fun x ox r b' hx hr hp => ?_⟩
  · simp [Heap.setRec, Heap.setObj, m.recs, hd]
  · simp only [Heap.setRec, Heap.setObj, update_apply]
    by_cases hxa : x = a
    · simp [hxa, hd]
    · simp [hxa, m.data x]
  · simp only [Heap.setRec, Heap.setObj, update_apply] at hx hr ⊢
    have hp' : ∃ r', h.recs ox.data = some r' ∧ r'.ptr = some b' := by
      by_cases hdx : ox.data = ob.data
      · rw [if_pos hdx] at hr
        cases hr
        exact ⟨rec, by rw [hdx, hrech], hp⟩
      · rw [if_neg hdx] at hr
        exact ⟨r, hr, hp⟩
    obtain ⟨r', hr', hp'⟩ := hp'
    by_cases hxa : x = a
    · rw [if_pos hxa] at hx ⊢
      cases hx
      rw [← m.same b ob r' b' hb hr' hp', hg]
    · rw [if_neg hxa] at hx ⊢
      exact m.same x ox r' b' hx hr' hp'

/-- destroy -/
theorem destroy_mend {o : Order} {lazy : Bool} {h g : Heap n} (m : Mends h g) (hinv : Inv o lazy g) {a : ℕ} {oa : Obj n}
    (ha : h.objs a = some oa) : ∃ h' g', step o lazy h (.destroy a) = .ok h' ∧ Mends h' g' ∧ Inv o lazy g' := by
  obtain ⟨og, hg, hd⟩ := m.some ha
  obtain ⟨rec, hrec, -⟩ := hinv.obj_rec a og hg
  have hrech : h.recs oa.data = some rec := by rw [m.recs, ← hd]; exact hrec
  obtain ⟨g', e1, e2⟩ := destroy_inv hinv hg
  rw [hd] at hrec
  simp only [step, hg, hd, hrec] at e1
  simp only [step, ha, hrech]
  have m1 : SameMemory ((h.setObj a none).setRec oa.data (some ⟨rec.ptr, rec.updaters.erase a, rec.holders⟩))
      ((g.setObj a none).setRec oa.data (some ⟨rec.ptr, rec.updaters.erase a, rec.holders⟩)) :=
    ⟨by simp [Heap.setRec, Heap.setObj, m.recs], m.bufs, m.nextRec, m.nextBuf⟩
  obtain ⟨h', f1, f2, f3, f4, f5⟩ := release_same m1 e1
  refine ⟨h', g', f1, ⟨f2, fun x => ?_, fun x ox r b hx hr hp => ?_⟩, e2⟩
  · rw [f3, f4]
    simp only [Heap.setRec, Heap.setObj, update_apply]
    by_cases hxa : x = a
    · simp [hxa]
    · simp [hxa, m.data x]
  · obtain ⟨r0, g1, g2⟩ := f5 _ _ hr
    rw [f3] at hx
    rw [f4]
    simp only [Heap.setRec, Heap.setObj, update_apply] at hx g1 ⊢
    by_cases hxa : x = a
    · rw [if_pos hxa] at hx; cases hx
    · rw [if_neg hxa] at hx ⊢
      by_cases hdx : ox.data = oa.data
      · rw [if_pos hdx] at g1
        cases g1
        exact m.same x ox rec b hx (by rw [hdx, hrech]) (g2.trans hp)
      · rw [if_neg hdx] at g1
        exact m.same x ox r0 b hx g1 (g2.trans hp)

/-- the grids that use a record are those whose callbacks are registered there -/
theorem mem_updaters {o : Order} {lazy : Bool} {g : Heap n} (hinv : Inv o lazy g) {d : ℕ} {rec : Rec} (hrec : g.recs d = some rec) {x : ℕ}
    {ox : Obj n} (hx : g.objs x = some ox) : ox.data = d ↔ x ∈ rec.updaters := by
  constructor
  · intro hd
    obtain ⟨r', e1, _, e3⟩ := hinv.obj_rec x ox hx
    rw [hd, hrec] at e1; cases e1
    exact e3
  · intro hu
    rcases hinv.upd d rec hrec x hu with hf | ⟨oy, e1, e2⟩
    · exact hf.1.elim
    · rw [hx] at e1; cases e1; exact e2

/-- the callbacks of a record reach all grids that use it -/
theorem updateAll_mend {o : Order} {lazy : Bool} {h g : Heap n} (m : Mends h g) (hinv : Inv o lazy g) {a : ℕ} {oa : Obj n} {rec : Rec}
    (ha : h.objs a = some oa) (hrec : h.recs oa.data = some rec) (h1 : Heap n) (r : Range (n + 1)) (bs bs' : ℕ) (fast : Option ℕ × Word)
    (rec1 : Rec) (ho1 : h1.objs = h.objs) (hr1 : h1.recs oa.data = some rec1) :
    ∃ h', updateAll o r bs (h1.setObj a (some ⟨oa.data, (Storage.size r).val, r, bs', fast⟩)) rec.updaters = .ok h' ∧
      h'.recs = h1.recs ∧ h'.bufs = h1.bufs ∧ h'.nextRec = h1.nextRec ∧ h'.nextBuf = h1.nextBuf ∧
      ∀ x, h'.objs x = if x ∈ rec.updaters then some ⟨oa.data, (Storage.size r).val, r, bs, (rec1.ptr, fastOff o r)⟩ else h.objs x := by
  obtain ⟨og, hg, hd⟩ := m.some ha
  have hrecg : g.recs oa.data = some rec := by rw [← m.recs]; exact hrec
  have hau : a ∈ rec.updaters := (mem_updaters hinv hrecg hg).mp hd
  obtain ⟨h', e1, e2, e3, e4, e5, e6⟩ := updateAll_spec o r bs oa.data rec1 rec.updaters
    (h1.setObj a (some ⟨oa.data, (Storage.size r).val, r, bs', fast⟩)) hr1 (by
      intro x hx
      by_cases hxa : x = a
      · subst hxa
        exact ⟨⟨oa.data, (Storage.size r).val, r, bs', fast⟩, by simp [Heap.setObj], rfl⟩
      · rcases hinv.upd _ rec hrecg x hx with hf | ⟨oy, e1, e2⟩
        · exact hf.1.elim
        · have hm := m.data x
          rw [e1] at hm
          cases hh : h.objs x with
          | none => rw [hh] at hm; cases hm
          | some ox =>
            rw [hh] at hm
            exact ⟨ox, by simp [Heap.setObj, hxa, ho1, hh], (Option.some.inj hm).trans e2⟩)
  refine ⟨h', e1, e2, e3, e4, e5, fun x => ?_⟩
  rw [e6]
  by_cases hu : x ∈ rec.updaters
  · rw [if_pos hu, if_pos hu]
  · rw [if_neg hu, if_neg hu]
    have : x ≠ a := by rintro rfl; exact hu hau
    simp [Heap.setObj, this, ho1]

/-- two heaps in which the grids of a record have been updated in the same way -/
theorem mends_updated {o : Order} {lazy : Bool} {h g h' g' : Heap n} (m : Mends h g) (hinv : Inv o lazy g) {d : ℕ} {rec : Rec}
    (hrec : g.recs d = some rec) (new new' : Obj n) (hn : new.data = d) (hn' : new'.data = d) (mem : SameMemory h' g')
    (hkeep : ∀ d', d' ≠ d → h'.recs d' = h.recs d')
    (hob : ∀ x, h'.objs x = if x ∈ rec.updaters then some new else h.objs x)
    (hob' : ∀ x, g'.objs x = if x ∈ rec.updaters then some new' else g.objs x)
    (heq : new = new' ∨ ∀ rec b, h'.recs d = some rec → rec.ptr ≠ some b) : Mends h' g' := by
  refine ⟨mem, fun x => ?_, fun x ox r b hx hr hp => ?_⟩
  · rw [hob, hob']
    by_cases hu : x ∈ rec.updaters
    · rw [if_pos hu, if_pos hu]; simp [hn, hn']
    · rw [if_neg hu, if_neg hu]; exact m.data x
  · rw [hob] at hx
    rw [hob']
    by_cases hu : x ∈ rec.updaters
    · rw [if_pos hu] at hx ⊢
      cases hx
      rcases heq with rfl | heq
      · rfl
      · rw [hn] at hr
        exact absurd hp (heq r b hr)
    · rw [if_neg hu] at hx ⊢
      have hxd : ox.data ≠ d := by
        intro hxd
        obtain ⟨og, e1, e2⟩ := m.some hx
        exact hu ((mem_updaters hinv hrec e1).mp (e2.trans hxd))
      rw [hkeep _ hxd] at hr
      exact m.same x ox r b hx hr hp

/-- The buffer of a record can be freed. -/
theorem freeBuf_inv {o : Order} {lazy : Bool} {g : Heap n} (hinv : Inv o lazy g) {d : ℕ} {rec : Rec} (hrec : g.recs d = some rec) :
    ∃ g0, freeBuf g rec.ptr = .ok g0 ∧ g0.objs = g.objs ∧ g0.recs = g.recs ∧ g0.nextRec = g.nextRec ∧ g0.nextBuf = g.nextBuf ∧
      (∀ b, rec.ptr ≠ some b → g0.bufs b = g.bufs b) ∧ (∀ b c, g0.bufs b = .live c → rec.ptr ≠ some b) ∧
      (∀ b, g.nextBuf ≤ b → g0.bufs b = .unused) := by
  cases hp : rec.ptr with
  | none => exact ⟨g, rfl, rfl, rfl, rfl, rfl, fun _ _ => rfl, fun _ _ _ => by simp, hinv.fresh_buf⟩
  | some b =>
    obtain ⟨c, hc⟩ := hinv.ptr_live _ rec b hrec hp
    refine ⟨g.setBuf b .freed, by simp only [freeBuf, hc], rfl, rfl, rfl, rfl, ?_, ?_, ?_⟩
    · intro b' hb'
      simp only [Heap.setBuf]
      rw [update_of_ne (fun e => hb' (by rw [e]))]
    · intro b' c' hb' he
      cases he
      simp [Heap.setBuf] at hb'
    · intro b' hb'
      have : b' ≠ b := by
        rintro rfl
        rw [hinv.fresh_buf _ hb'] at hc
        cases hc
      simp only [Heap.setBuf]
      rw [update_of_ne this, hinv.fresh_buf _ hb']

/-- a `resize` that throws -/
theorem fail_mend {o : Order} {lazy : Bool} {h g : Heap n} (m : Mends h g) (hinv : Inv o lazy g) {a : ℕ} {oa : Obj n}
    (ha : h.objs a = some oa) (r : Range (n + 1)) (shrink : Bool) (slack : ℕ)
    (hm : mustRealloc lazy (Storage.size r).val oa.bufSize shrink = true) :
    ∃ h' g', failResize lazy h a r shrink slack = .ok h' ∧ Mends h' g' ∧ Inv o lazy g' ∧
      (∀ x, x ≠ a → h'.objs x = h.objs x) ∧ (∀ b c, h'.bufs b = .live c → h.bufs b = .live c) ∧
      ∀ x ox, h.objs x = some ox → ox.data ≠ oa.data → ∀ rec b, h.recs ox.data = some rec → rec.ptr = some b →
        h'.bufs b = h.bufs b := by
  obtain ⟨og, hg, hd⟩ := m.some ha
  obtain ⟨rec, hrec, -⟩ := hinv.obj_rec a og hg
  rw [hd] at hrec
  have hrech : h.recs oa.data = some rec := by rw [m.recs]; exact hrec
  obtain ⟨g0, k1, k2, k3, k4, k5, k6, k7, k8⟩ := freeBuf_inv hinv hrec
  obtain ⟨h0, l1, l2, l3, l4, l5⟩ := freeBuf_same m.toSameMemory k1
  simp only [failResize, ha, hrech, if_pos hm, l1]
  set new : Obj n := ⟨oa.data, if lazy = true then 0 else (Storage.size r).val, r,
    if lazy = true then allocSize lazy (Storage.size r).val slack else oa.bufSize, oa.fast⟩ with hnew
  have hsz : (Storage.size (noCells n)).val = 0 := size_noCells
  set null : Obj n := ⟨oa.data, (Storage.size (noCells n)).val, noCells n, 0, (none, fastOff o (noCells n))⟩ with hnull
  set g' : Heap n := { g0 with recs := update g0.recs oa.data (some { rec with ptr := none }),
                               objs := fun x => if x ∈ rec.updaters then some null else g.objs x } with hg'
  refine ⟨_, g', rfl, ⟨⟨?_, ?_, ?_, ?_⟩, fun x => ?_, fun x ox r' b hx hr hp => ?_⟩, ?_, ?_, ?_, ?_⟩
  · simp [Heap.setRec, Heap.setObj, hg', l2.recs]
  · simp [Heap.setRec, Heap.setObj, hg', l2.bufs]
  · simp [Heap.setRec, Heap.setObj, hg', l2.nextRec]
  · simp [Heap.setRec, Heap.setObj, hg', l2.nextBuf]
  · simp only [Heap.setRec, Heap.setObj, update_apply, hg', l3]
    by_cases hxa : x = a
    · rw [if_pos hxa, if_pos (by rw [hxa]; exact (mem_updaters hinv hrec hg).mp hd)]
      rfl
    · rw [if_neg hxa]
      by_cases hu : x ∈ rec.updaters
      · rw [if_pos hu, m.data x]
        rcases hinv.upd _ rec hrec x hu with hf | ⟨oy, e1, e2⟩
        · exact hf.1.elim
        · rw [e1]; simp [e2, hnull]
      · rw [if_neg hu, m.data x]
  · simp only [Heap.setRec, Heap.setObj, update_apply, l3, l5] at hx hr
    by_cases hxd : ox.data = oa.data
    · rw [if_pos hxd] at hr
      cases hr
      cases hp
    · rw [if_neg hxd] at hr
      by_cases hxa : x = a
      · rw [if_pos hxa] at hx
        cases hx
        exact absurd rfl hxd
      · rw [if_neg hxa] at hx
        have e := m.same x ox r' b hx hr hp
        show (if x ∈ rec.updaters then some null else g.objs x) = some ox
        rw [if_neg (fun hu => hxd ((mem_updaters hinv hrec e).mpr hu)), e]
  · refine resized_inv (d := oa.data) (rec := rec) (r := noCells n) (bs := 0) (ptr' := none) hinv hrec (fun d' => ?_) (fun x => rfl) ?_ ?_
      ?_ ?_ (fun b hb => by cases hb) (fun b _ _ hb => by cases hb) ?_
    · simp only [hg', update_apply, k3]
    · exact k4
    · exact ⟨hsz, fun _ => rfl, rfl⟩
    · intro b cap hb hl
      show g0.bufs b = _
      rw [k6 b hb, hl]
    · intro b cap hl
      have hl : g0.bufs b = _ := hl
      have := k7 b cap hl
      exact Or.inr ⟨this, by rw [← k6 b this, hl]⟩
    · intro b hb
      have hb : g0.nextBuf ≤ b := hb
      rw [k5] at hb
      exact k8 b hb
  · intro x hx
    simp [Heap.setRec, Heap.setObj, hx, l3]
  · intro b c hb
    have hb : h0.bufs b = .live c := hb
    rw [l2.bufs] at hb
    rw [m.bufs, ← k6 b (k7 b c hb), hb]
  · intro x ox hx hxd r' b hr hp
    show h0.bufs b = _
    rw [l2.bufs, m.bufs]
    refine k6 b fun hpb => hxd ?_
    rw [m.recs] at hr
    exact hinv.ptr_inj _ _ r' rec b hr hrec hp hpb

/-- resize -/
theorem resize_mend {o : Order} {lazy : Bool} {h g : Heap n} (m : Mends h g) (hinv : Inv o lazy g) {a : ℕ} {oa : Obj n}
    (ha : h.objs a = some oa) (r : Range (n + 1)) (shrink : Bool) (slack : ℕ) :
    ∃ h' g', step o lazy h (.resize a r shrink slack) = .ok h' ∧ Mends h' g' ∧ Inv o lazy g' ∧
      (∀ x ox, h.objs x = some ox → ox.data = oa.data → ∃ oy, h'.objs x = some oy ∧ oy.data = oa.data ∧ oy.range = r ∧
        oy.size = (Storage.size r).val) ∧
      (mustRealloc lazy (Storage.size r).val oa.bufSize shrink = true → ∃ rec b, h'.recs oa.data = some rec ∧ rec.ptr = some b) := by
  obtain ⟨og, hg, hd⟩ := m.some ha
  obtain ⟨rec, hrec, -⟩ := hinv.obj_rec a og hg
  have hrec' := hrec
  rw [hd] at hrec
  have hrech : h.recs oa.data = some rec := by rw [m.recs]; exact hrec
  have hrest : ∀ (h' : Heap n) (bs : ℕ) (ptr' : Option ℕ),
      (∀ x, h'.objs x = if x ∈ rec.updaters then
        some ⟨oa.data, (Storage.size r).val, r, bs, (ptr', fastOff o r)⟩ else h.objs x) →
      ∀ x ox, h.objs x = some ox → ox.data = oa.data → ∃ oy, h'.objs x = some oy ∧
        oy.data = oa.data ∧ oy.range = r ∧ oy.size = (Storage.size r).val := by
    intro h' bs ptr' hobjs x ox hx hxd
    obtain ⟨ogx, e1, e2⟩ := m.some hx
    exact ⟨⟨oa.data, (Storage.size r).val, r, bs, (ptr', fastOff o r)⟩,
      by rw [hobjs, if_pos ((mem_updaters hinv hrec e1).mp (e2.trans hxd))], rfl, rfl, rfl⟩
  obtain ⟨g', hgs, hgi, -⟩ := resize_inv hinv hg r shrink slack
  by_cases hm : mustRealloc lazy (Storage.size r).val oa.bufSize shrink = true
  · -- the mended grid allocates, too
    have hmg : mustRealloc lazy (Storage.size r).val og.bufSize shrink = true := by
      cases hp : rec.ptr with
      | some b =>
        have := m.same a oa rec b ha hrech hp
        rw [hg] at this
        cases this
        exact hm
      | none =>
        cases lazy with
        | false => simp [mustRealloc]
        | true =>
          have hs := hinv.shape a og rec hg hrec'
          rw [hp] at hs
          have hb := hs.2.1 rfl
          simp only [mustRealloc, hb] at hm ⊢
          simp only [Bool.not_true, Bool.false_or, Bool.or_eq_true, decide_eq_true_eq] at hm ⊢
          rcases hm with hm | hm
          · left; omega
          · exact Or.inr hm
    obtain ⟨g0, k1, k2, k3, k4, k5, -⟩ := freeBuf_inv hinv hrec
    obtain ⟨h0, l1, l2, l3, l4, l5⟩ := freeBuf_same m.toSameMemory k1
    simp only [step, hg, hd, hrec, resizeImpl, if_pos hmg, realloc, k1] at hgs
    simp only [step, ha, hrech, resizeImpl, if_pos hm, realloc, l1]
    set cap := allocSize lazy (Storage.size r).val slack with hcap
    set h2 : Heap n := { (h0.setRec oa.data (some { rec with ptr := some h0.nextBuf })).setBuf h0.nextBuf
      (.live cap) with nextBuf := h0.nextBuf + 1 } with hh2
    set g2 : Heap n := { (g0.setRec oa.data (some { rec with ptr := some g0.nextBuf })).setBuf g0.nextBuf
      (.live cap) with nextBuf := g0.nextBuf + 1 } with hg2
    have mem2 : SameMemory h2 g2 := ⟨by simp [hh2, hg2, Heap.setBuf, Heap.setRec, l2.recs, l2.nextBuf],
      by simp [hh2, hg2, Heap.setBuf, Heap.setRec, l2.bufs, l2.nextBuf], by simp [hh2, hg2, Heap.setBuf, Heap.setRec, l2.nextRec],
      by simp [hh2, hg2, l2.nextBuf]⟩
    obtain ⟨h', e1, e2, e3, e4, e5, e6⟩ := updateAll_mend m hinv ha hrech h2 r cap cap oa.fast { rec with ptr := some h0.nextBuf } l3
      (by simp [hh2, Heap.setBuf, Heap.setRec])
    have hg2r : g2.recs og.data = some { rec with ptr := some g0.nextBuf } := by simp [hg2, Heap.setBuf, Heap.setRec, hd]
    obtain ⟨g'', f1, f2, f3, f4, f5, f6⟩ := updateAll_mend (Mends.refl g) hinv hg hrec' g2 r cap cap og.fast
      { rec with ptr := some g0.nextBuf } k2 hg2r
    rw [hd] at f1 f6
    rw [hgs] at f1
    cases f1
    refine ⟨h', g', e1, ?_, hgi, hrest h' _ _ e6, fun _ => ⟨{ rec with ptr := some h0.nextBuf }, h0.nextBuf, ?_, rfl⟩⟩
    · rw [← l2.nextBuf] at f6
      refine mends_updated m hinv hrec ⟨oa.data, (Storage.size r).val, r, cap, (some h0.nextBuf, fastOff o r)⟩
        ⟨oa.data, (Storage.size r).val, r, cap, (some h0.nextBuf, fastOff o r)⟩ rfl rfl ⟨?_, ?_, ?_, ?_⟩ ?_ e6 f6 (Or.inl rfl)
      · rw [e2, f2]; exact mem2.recs
      · rw [e3, f3]; exact mem2.bufs
      · rw [e4, f4]; exact mem2.nextRec
      · rw [e5, f5]; exact mem2.nextBuf
      · intro d' hd'
        rw [e2]
        simp [hh2, Heap.setBuf, Heap.setRec, hd', l5]
    · rw [e2]; simp [hh2, Heap.setBuf, Heap.setRec]
  · simp only [step, ha, hrech, resizeImpl, if_neg hm]
    obtain ⟨h', e1, e2, e3, e4, e5, e6⟩ := updateAll_mend m hinv ha hrech h r oa.bufSize oa.bufSize oa.fast rec rfl hrech
    cases hp : rec.ptr with
    | some b =>
      have hs := m.same a oa rec b ha hrech hp
      rw [hg] at hs
      cases hs
      simp only [step, hg, hrec', resizeImpl, if_neg hm] at hgs
      obtain ⟨g'', f1, f2, f3, f4, f5, f6⟩ := updateAll_mend (Mends.refl g) hinv hg hrec' g r oa.bufSize oa.bufSize oa.fast rec rfl hrec'
      rw [hgs] at f1
      cases f1
      refine ⟨h', g', e1, ?_, hgi, hrest h' _ _ e6, fun hc => absurd hc hm⟩
      refine mends_updated m hinv hrec ⟨oa.data, (Storage.size r).val, r, oa.bufSize, (rec.ptr, fastOff o r)⟩
        ⟨oa.data, (Storage.size r).val, r, oa.bufSize, (rec.ptr, fastOff o r)⟩ rfl rfl ⟨?_, ?_, ?_, ?_⟩ ?_ e6 f6 (Or.inl rfl)
      · rw [e2, f2]; exact m.recs
      · rw [e3, f3]; exact m.bufs
      · rw [e4, f4]; exact m.nextRec
      · rw [e5, f5]; exact m.nextBuf
      · intro d' _; rw [e2]
    | none =>
      refine ⟨h', g, e1, ⟨⟨?_, ?_, ?_, ?_⟩, fun x => ?_, fun x ox r' b hx hr hp' => ?_⟩, hinv, hrest h' _ _ e6, fun hc => absurd hc hm⟩
      · rw [e2]; exact m.recs
      · rw [e3]; exact m.bufs
      · rw [e4]; exact m.nextRec
      · rw [e5]; exact m.nextBuf
      · rw [e6]
        by_cases hu : x ∈ rec.updaters
        · rw [if_pos hu]
          rcases hinv.upd _ rec hrec x hu with hf | ⟨oy, i1, i2⟩
          · exact hf.1.elim
          · rw [i1]; simp [i2]
        · rw [if_neg hu]; exact m.data x
      · rw [e6] at hx
        rw [e2] at hr
        by_cases hu : x ∈ rec.updaters
        · rw [if_pos hu] at hx
          cases hx
          rw [hrech] at hr
          cases hr
          rw [hp] at hp'
          cases hp'
        · rw [if_neg hu] at hx
          exact m.same x ox r' b hx hr hp'

/-- assign -/
theorem assign_mend {o : Order} {lazy : Bool} {h g : Heap n} (m : Mends h g) (hinv : Inv o lazy g) {a b : ℕ} {oa ob : Obj n}
    (ha : h.objs a = some oa) (hb : h.objs b = some ob)
    (hsafe : (oa.data = ob.data ∨ ∀ x ox, h.objs x = some ox → ox.data = oa.data → x = a) ∧ (lazy = true → oa.bufSize ≤ ob.bufSize)) :
    ∃ h' g', step o lazy h (.assign a b) = .ok h' ∧ Mends h' g' ∧ Inv o lazy g' := by
  obtain ⟨ga, hga, hda⟩ := m.some ha
  obtain ⟨gb, hgb, hdb⟩ := m.some hb
  obtain ⟨recb, hrecb, -⟩ := hinv.obj_rec b gb hgb
  have hrecbh : h.recs ob.data = some recb := by rw [m.recs, ← hdb]; exact hrecb
  -- let the mended `a` forget the size of its buffer
  set g1 : Heap n := g.setObj a (some { ga with bufSize := 0 }) with hg1
  have hg1o : ∀ x, g1.objs x = if x = a then some { ga with bufSize := 0 } else g.objs x := fun x => by
    simp [hg1, Heap.setObj, update_apply]
  have hinv1 : Inv o lazy g1 := by
    refine inv_bufSize hinv ⟨rfl, rfl, rfl, rfl⟩ (fun x ox hx => ?_) (fun x ogx hx => ?_)
    · rw [hg1o] at hx
      by_cases hxa : x = a
      · rw [if_pos hxa] at hx
        cases hx
        exact ⟨ga, by rw [hxa, hga], rfl, fun _ _ _ => ⟨fun _ => rfl, fun _ _ _ _ => Nat.zero_le _⟩⟩
      · rw [if_neg hxa] at hx
        refine ⟨ox, hx, rfl, fun rec hr hl => ?_⟩
        have hs := hinv.shape x ox rec hx hr
        refine ⟨fun hp => ?_, fun b' cap hp hcap => ?_⟩
        · rw [hp] at hs; exact hs.2.1 hl
        · rw [hp] at hs
          obtain ⟨cap', c1, -, -, -, c5⟩ := hs
          rw [hcap] at c1
          cases c1
          exact c5 hl
    · rw [hg1o]
      by_cases hxa : x = a
      · rw [if_pos hxa]
        rw [hxa, hga] at hx
        cases hx
        exact ⟨_, rfl, rfl⟩
      · rw [if_neg hxa]; exact ⟨ogx, hx, rfl⟩
  have hgb1 : ∃ gb1, g1.objs b = some gb1 ∧ gb1.data = ob.data ∧ ∀ b', recb.ptr = some b' →
      gb1 = { ob with bufSize := gb1.bufSize } := by
    rw [hg1o]
    by_cases hba : b = a
    · rw [if_pos hba]
      rw [hba, hga] at hgb
      cases hgb
      refine ⟨_, rfl, hdb, fun b' hp => ?_⟩
      have := m.same b ob recb b' hb hrecbh hp
      rw [hba, hga] at this
      cases this
      rfl
    · rw [if_neg hba]
      refine ⟨gb, hgb, hdb, fun b' hp => ?_⟩
      have := m.same b ob recb b' hb hrecbh hp
      rw [hgb] at this
      cases this
      rfl
  obtain ⟨gb1, hgb1, hdb1, hsame1⟩ := hgb1
  have hga1 : g1.objs a = some { ga with bufSize := 0 } := by rw [hg1o, if_pos rfl]
  obtain ⟨g', hs', hi'⟩ := assign_inv (b := b) hinv1 hga1 hgb1 (by
    intro oa' ob' e1 e2
    rw [hga1] at e1; cases e1
    rw [hgb1] at e2; cases e2
    refine ⟨?_, fun _ => Nat.zero_le _⟩
    rcases hsafe.1 with hs | hs
    · left; show ga.data = _; rw [hda, hdb1]; exact hs
    · right
      intro x ox hx hxd
      by_contra hxa
      rw [hg1o, if_neg hxa] at hx
      have hmx := m.data x
      rw [hx] at hmx
      cases hh : h.objs x with
      | none => rw [hh] at hmx; cases hmx
      | some ohx =>
        rw [hh] at hmx
        exact hxa (hs x ohx hh ((Option.some.inj hmx).trans (hxd.trans hda))))
  have hrecb1 : g1.recs gb1.data = some recb := by
    show g.recs gb1.data = _
    rw [hdb1, ← hdb]; exact hrecb
  -- the two steps
  have key : ∃ h', step o lazy h (.assign a b) = .ok h' ∧ SameMemory h' g' ∧
      (∀ x, h'.objs x = if x = a then some { ob with bufSize := oa.bufSize } else h.objs x) ∧
      (∀ x, g'.objs x = if x = a then some { gb1 with bufSize := 0 } else g.objs x) ∧
      ∀ d' rec, h'.recs d' = some rec → ∃ rec0, h.recs d' = some rec0 ∧ rec0.ptr = rec.ptr := by
    simp only [step, hga1, hgb1, hrecb1] at hs'
    simp only [step, ha, hb, hrecbh]
    have hob1 : (⟨ob.data, gb1.size, gb1.range, 0, gb1.fast⟩ : Obj n) = { gb1 with bufSize := 0 } := by rw [← hdb1]
    rw [hda, hdb1, hob1] at hs'
    have hptr : ∀ l : List ℕ, ∀ d' rec, update h.recs ob.data (some ⟨recb.ptr, addKey recb.updaters a, l⟩) d' = some rec →
        ∃ rec0, h.recs d' = some rec0 ∧ rec0.ptr = rec.ptr := by
      intro l d' rec hr
      simp only [update_apply] at hr
      by_cases hdd : d' = ob.data
      · rw [if_pos hdd] at hr
        cases hr
        exact ⟨recb, by rw [hdd, hrecbh], rfl⟩
      · rw [if_neg hdd] at hr
        exact ⟨rec, hr, rfl⟩
    by_cases hd : oa.data = ob.data
    · rw [if_pos hd] at hs' ⊢
      cases hs'
      refine ⟨_, rfl, ⟨?_, m.bufs, m.nextRec, m.nextBuf⟩, fun x => ?_, fun x => ?_, hptr _⟩
      · simp [Heap.setRec, Heap.setObj, m.recs, hg1]
      · simp [Heap.setRec, Heap.setObj, update_apply]
      · simp only [Heap.setRec, Heap.setObj, update_apply, hg1]
        by_cases hxa : x = a <;> simp [hxa]
    · rw [if_neg hd] at hs' ⊢
      have m1 : SameMemory ((h.setObj a (some { ob with bufSize := oa.bufSize })).setRec ob.data
            (some ⟨recb.ptr, addKey recb.updaters a, a :: recb.holders⟩))
          ((g1.setObj a (some { gb1 with bufSize := 0 })).setRec ob.data
            (some ⟨recb.ptr, addKey recb.updaters a, a :: recb.holders⟩)) :=
        ⟨by simp [Heap.setRec, Heap.setObj, m.recs, hg1], m.bufs, m.nextRec, m.nextBuf⟩
      obtain ⟨h', f1, f2, f3, f4, f5⟩ := release_same m1 hs'
      refine ⟨h', f1, f2, fun x => ?_, fun x => ?_, fun d' rec hr => ?_⟩
      · rw [f3]; simp [Heap.setRec, Heap.setObj, update_apply]
      · rw [f4]
        simp only [Heap.setRec, Heap.setObj, update_apply, hg1]
        by_cases hxa : x = a <;> simp [hxa]
      · obtain ⟨rec0, i1, i2⟩ := f5 d' rec hr
        obtain ⟨rec1, j1, j2⟩ := hptr _ d' rec0 i1
        exact ⟨rec1, j1, j2.trans i2⟩
  obtain ⟨h', hs, mem, ho, hog, hrp⟩ := key
  -- give `a` its buffer size back if it has a buffer
  have hrecb' : ∀ rec b', h'.recs ob.data = some rec → rec.ptr = some b' → recb.ptr = some b' := by
    intro rec b' hr hp
    obtain ⟨rec0, i1, i2⟩ := hrp _ _ hr
    rw [hrecbh] at i1
    cases i1
    exact i2.trans hp
  set bs : ℕ := if recb.ptr = none then 0 else oa.bufSize with hbs
  refine ⟨h', g'.setObj a (some { gb1 with bufSize := bs }), hs, ⟨⟨mem.recs, mem.bufs, mem.nextRec, mem.nextBuf⟩, fun x => ?_,
    fun x ox rec b' hx hr hp => ?_⟩, ?_⟩
  · simp only [Heap.setObj, update_apply]
    rw [ho x, hog x]
    by_cases hxa : x = a
    · rw [if_pos hxa, if_pos hxa]; simp [hdb1]
    · rw [if_neg hxa, if_neg hxa, if_neg hxa]; exact m.data x
  · simp only [Heap.setObj, update_apply]
    rw [ho x] at hx
    rw [hog x]
    by_cases hxa : x = a
    · rw [if_pos hxa] at hx ⊢
      cases hx
      have hp' := hrecb' rec b' hr hp
      have := hsame1 b' hp'
      rw [this, hbs, if_neg (by rw [hp']; simp)]
    · rw [if_neg hxa] at hx ⊢
      rw [if_neg hxa]
      obtain ⟨rec0, i1, i2⟩ := hrp _ _ hr
      exact m.same x ox rec0 b' hx i1 (i2.trans hp)
  · refine inv_bufSize hi' ⟨rfl, rfl, rfl, rfl⟩ (fun x ox hx => ?_) (fun x ogx hx => ?_)
    · simp only [Heap.setObj, update_apply] at hx
      by_cases hxa : x = a
      · rw [if_pos hxa] at hx
        cases hx
        refine ⟨{ gb1 with bufSize := 0 }, by rw [hog, if_pos hxa], rfl, fun rec hr hl => ?_⟩
        have hr' : h'.recs ob.data = some rec := by rw [mem.recs, ← hdb1]; exact hr
        obtain ⟨rec0, i1, i2⟩ := hrp _ _ hr'
        rw [hrecbh] at i1
        cases i1
        refine ⟨fun hp => ?_, fun b' cap hp hcap => ?_⟩
        · show bs = 0
          rw [hbs, if_pos (i2.trans hp)]
        · show bs ≤ cap
          have hpb := i2.trans hp
          rw [hbs, if_neg (by rw [hpb]; simp)]
          refine (hsafe.2 hl).trans ?_
          have hgb' := m.same b ob recb b' hb hrecbh hpb
          have hsh := hinv.shape b ob recb hgb' (by rw [← m.recs]; exact hrecbh)
          rw [hpb] at hsh
          obtain ⟨cap0, c1, -, -, -, c5⟩ := hsh
          -- the buffer is still the same
          have hsh' := hi'.shape a { gb1 with bufSize := 0 } rec (by rw [hog, if_pos rfl]) hr
          rw [hp] at hsh'
          have hbuf : ∀ c, g'.bufs b' = .live c → g.bufs b' = .live c := by
            intro c hc
            have hmono : ∀ {k k' : Heap n} {q : Option ℕ}, freeBuf k q = .ok k' → k'.bufs b' = .live c → k.bufs b' = .live c := by
              intro k k' q hk hk'
              cases q with
              | none => cases hk; exact hk'
              | some b2 =>
                simp only [freeBuf] at hk
                cases hb2 : k.bufs b2 with
                | live c2 =>
                  rw [hb2] at hk
                  cases hk
                  simp only [Heap.setBuf, update_apply] at hk'
                  by_cases hbb : b' = b2
                  · rw [if_pos hbb] at hk'; cases hk'
                  · rw [if_neg hbb] at hk'; exact hk'
                | unused => rw [hb2] at hk; cases hk
                | freed => rw [hb2] at hk; cases hk
            simp only [step, hga1, hgb1, hrecb1] at hs'
            by_cases hd : ga.data = gb1.data
            · rw [if_pos hd] at hs'; cases hs'; exact hc
            · rw [if_neg hd] at hs'
              simp only [release] at hs'
              cases hq : ((g1.setObj a (some { gb1 with bufSize := 0 })).setRec gb1.data
                (some ⟨recb.ptr, addKey recb.updaters a, a :: recb.holders⟩)).recs ga.data with
              | none => rw [hq] at hs'; cases hs'
              | some q =>
                rw [hq] at hs'
                simp only at hs'
                by_cases he : q.holders.erase a = []
                · rw [if_pos he] at hs'
                  have hres := hmono hs' hc
                  exact hres
                · rw [if_neg he] at hs'
                  cases hs'
                  exact hc
          have := hbuf cap hcap
          rw [c1] at this
          cases this
          exact c5 hl
      · rw [if_neg hxa] at hx
        refine ⟨ox, hx, rfl, fun rec hr hl => ?_⟩
        have hsx := hi'.shape x ox rec hx hr
        refine ⟨fun hp => ?_, fun b' cap hp hcap => ?_⟩
        · rw [hp] at hsx; exact hsx.2.1 hl
        · rw [hp] at hsx
          obtain ⟨cap', c1, -, -, -, c5⟩ := hsx
          rw [hcap] at c1
          cases c1
          exact c5 hl
    · simp only [Heap.setObj, update_apply]
      by_cases hxa : x = a
      · rw [if_pos hxa]
        rw [hog, if_pos hxa] at hx
        cases hx
        exact ⟨_, rfl, rfl⟩
      · rw [if_neg hxa]; exact ⟨ogx, hx, rfl⟩

/-! ## stale pointers -/

/-- `data_fast` of a grid points into the buffer of its record or into a buffer that has been freed. -/
def Stale (h : Heap n) : Prop := ∀ x ob rec b, h.objs x = some ob → h.recs ob.data = some rec → ob.fast.1 = some b →
  rec.ptr = some b ∨ h.bufs b = .freed

theorem freeBuf_freed {h h' : Heap n} {p : Option ℕ} (hs : freeBuf h p = .ok h') :
    (∀ b, h.bufs b = .freed → h'.bufs b = .freed) ∧ (∀ b, p = some b → h'.bufs b = .freed) ∧ h'.objs = h.objs ∧ h'.recs = h.recs ∧
      h'.nextBuf = h.nextBuf := by
  cases p with
  | none => cases hs; exact ⟨fun _ h => h, fun _ h => by simp at h, rfl, rfl, rfl⟩
  | some b =>
    simp only [freeBuf] at hs
    cases hb : h.bufs b with
    | live c =>
      rw [hb] at hs
      cases hs
      refine ⟨fun b' hb' => ?_, fun b' hb' => ?_, rfl, rfl, rfl⟩
      · simp only [Heap.setBuf, update_apply]
        by_cases he : b' = b
        · rw [if_pos he]
        · rw [if_neg he, hb']
      · cases hb'
        simp [Heap.setBuf]
    | unused => rw [hb] at hs; cases hs
    | freed => rw [hb] at hs; cases hs

/-- the general step: freed buffers stay freed, and every grid either has the pointer of its record, or it has the pointer of a grid of before,
and the buffer of the record is the same or has been freed -/
theorem stale_step {h h' : Heap n} (hst : Stale h) (hf : ∀ b, h.bufs b = .freed → h'.bufs b = .freed)
    (hob : ∀ x ob rec, h'.objs x = some ob → h'.recs ob.data = some rec → ob.fast.1 = rec.ptr ∨
      ∃ y oy rec0, h.objs y = some oy ∧ oy.fast = ob.fast ∧ h.recs oy.data = some rec0 ∧
        (rec0.ptr = rec.ptr ∨ ∀ b, rec0.ptr = some b → h'.bufs b = .freed)) : Stale h' := by
  intro x ob rec b hx hr hb
  rcases hob x ob rec hx hr with he | ⟨y, oy, rec0, e1, e2, e3, e4⟩
  · exact Or.inl (he.symm.trans hb)
  · rw [← e2] at hb
    rcases hst y oy rec0 b e1 e3 hb with hp | hp
    · rcases e4 with e4 | e4
      · exact Or.inl (e4.symm.trans hp)
      · exact Or.inr (e4 b hp)
    · exact Or.inr (hf b hp)

theorem release_stale {h h' : Heap n} (hst : Stale h) {a d : ℕ} (hs : release h a d = .ok h') : Stale h' := by
  simp only [release] at hs
  cases hr : h.recs d with
  | none => rw [hr] at hs; cases hs
  | some rec =>
    rw [hr] at hs
    simp only at hs
    have hkeep : h'.objs = h.objs ∧ (∀ b, h.bufs b = .freed → h'.bufs b = .freed) ∧
        ∀ d' rec', h'.recs d' = some rec' → ∃ rec0, h.recs d' = some rec0 ∧ rec0.ptr = rec'.ptr := by
      by_cases he : rec.holders.erase a = []
      · rw [if_pos he] at hs
        obtain ⟨f1, -, f3, f4, -⟩ := freeBuf_freed hs
        refine ⟨f3, f1, fun d' rec' hr' => ?_⟩
        rw [f4] at hr'
        simp only [Heap.setRec, update_apply] at hr'
        by_cases hdd : d' = d
        · rw [if_pos hdd] at hr'; cases hr'
        · rw [if_neg hdd] at hr'; exact ⟨rec', hr', rfl⟩
      · rw [if_neg he] at hs
        cases hs
        refine ⟨rfl, fun _ h => h, fun d' rec' hr' => ?_⟩
        simp only [Heap.setRec, update_apply] at hr'
        by_cases hdd : d' = d
        · rw [if_pos hdd] at hr'; cases hr'; exact ⟨rec, by rw [hdd, hr], rfl⟩
        · rw [if_neg hdd] at hr'; exact ⟨rec', hr', rfl⟩
    obtain ⟨k1, k2, k3⟩ := hkeep
    refine stale_step hst k2 fun x ob rec' hx hr' => Or.inr ?_
    rw [k1] at hx
    obtain ⟨rec0, i1, i2⟩ := k3 _ _ hr'
    exact ⟨x, ob, rec0, hx, rfl, i1, Or.inl i2⟩

/-- a change of the lists of a record -/
theorem setRec_stale {h : Heap n} (hst : Stale h) {d : ℕ} {rec : Rec} (hr : h.recs d = some rec) (u l : List ℕ) :
    Stale (h.setRec d (some ⟨rec.ptr, u, l⟩)) := by
  refine stale_step hst (fun _ h => h) fun x ob rec' hx hr' => Or.inr ⟨x, ob, ?_⟩
  simp only [Heap.setRec, update_apply] at hr'
  by_cases hdd : ob.data = d
  · rw [if_pos hdd] at hr'
    cases hr'
    exact ⟨rec, hx, rfl, by rw [hdd, hr], Or.inl rfl⟩
  · rw [if_neg hdd] at hr'
    exact ⟨rec', hx, rfl, hr', Or.inl rfl⟩

/-- removing a grid, or giving it the pointer and the record of another one -/
theorem setObj_stale {h : Heap n} (hst : Stale h) (a : ℕ) (v : Option (Obj n))
    (hv : ∀ ob, v = some ob → ∃ y oy, h.objs y = some oy ∧ oy.fast = ob.fast ∧ oy.data = ob.data) : Stale (h.setObj a v) := by
  refine stale_step hst (fun _ h => h) fun x ob rec hx hr => Or.inr ?_
  simp only [Heap.setObj, update_apply] at hx
  have hr : h.recs ob.data = some rec := hr
  by_cases hxa : x = a
  · rw [if_pos hxa] at hx
    obtain ⟨y, oy, e1, e2, e3⟩ := hv ob hx
    exact ⟨y, oy, rec, e1, e2, by rw [e3, hr], Or.inl rfl⟩
  · rw [if_neg hxa] at hx
    exact ⟨x, ob, rec, hx, rfl, hr, Or.inl rfl⟩

theorem step_stale {o : Order} {lazy : Bool} {h g h' : Heap n} (m : Mends h g) (hinv : Inv o lazy g) (hst : Stale h) {op : Op n}
    (hs : step o lazy h op = .ok h') : Stale h' := by
  cases op with
  | construct a =>
    cases ha : h.objs a with
    | some _ => simp [step, ha] at hs
    | none =>
      simp only [step, ha] at hs
      cases hs
      refine stale_step hst (fun _ h => h) fun x ob rec hx hr => ?_
      simp only [Heap.setRec, Heap.setObj, update_apply] at hx hr
      by_cases hxa : x = a
      · rw [if_pos hxa] at hx
        cases hx
        rw [if_pos rfl] at hr
        cases hr
        exact Or.inl rfl
      · rw [if_neg hxa] at hx
        by_cases hd : ob.data = h.nextRec
        · obtain ⟨og, e1, e2⟩ := m.some hx
          obtain ⟨r', f1, -⟩ := hinv.obj_rec x og e1
          rw [e2, hd, m.nextRec, hinv.fresh_rec _ le_rfl] at f1
          cases f1
        · rw [if_neg hd] at hr
          exact Or.inr ⟨x, ob, rec, hx, rfl, hr, Or.inl rfl⟩
  | copy a b =>
    cases ha : h.objs a with
    | some _ => simp [step, ha] at hs
    | none =>
      cases hb : h.objs b with
      | none => simp [step, ha, hb] at hs
      | some ob =>
        cases hr : h.recs ob.data with
        | none => simp [step, ha, hb, hr] at hs
        | some rec =>
          simp only [step, ha, hb, hr] at hs
          cases hs
          exact setRec_stale (setObj_stale hst a _ fun ob' h' => ⟨b, ob, hb, by cases h'; rfl, by cases h'; rfl⟩) hr _ _
  | assign a b =>
    cases ha : h.objs a with
    | none => simp [step, ha] at hs
    | some oa =>
      cases hb : h.objs b with
      | none => simp [step, ha, hb] at hs
      | some ob =>
        cases hr : h.recs ob.data with
        | none => simp [step, ha, hb, hr] at hs
        | some rec =>
          simp only [step, ha, hb, hr] at hs
          have h1 : Stale (h.setObj a (some { ob with bufSize := oa.bufSize })) :=
            setObj_stale hst a _ fun ob' h' => ⟨b, ob, hb, by cases h'; rfl, by cases h'; rfl⟩
          by_cases hd : oa.data = ob.data
          · rw [if_pos hd] at hs
            cases hs
            exact setRec_stale h1 hr _ _
          · rw [if_neg hd] at hs
            exact release_stale (setRec_stale h1 hr _ _) hs
  | destroy a =>
    cases ha : h.objs a with
    | none => simp [step, ha] at hs
    | some oa =>
      cases hr : h.recs oa.data with
      | none => simp [step, ha, hr] at hs
      | some rec =>
        simp only [step, ha, hr] at hs
        exact release_stale (setRec_stale (setObj_stale hst a none fun _ h' => by cases h') hr _ _) hs
  | resize a r shrink slack =>
    cases ha : h.objs a with
    | none => simp [step, ha] at hs
    | some oa =>
      obtain ⟨og, hg, hd⟩ := m.some ha
      obtain ⟨rec, hrec, -⟩ := hinv.obj_rec a og hg
      rw [hd] at hrec
      have hrech : h.recs oa.data = some rec := by rw [m.recs]; exact hrec
      have hout : ∀ x ox, h.objs x = some ox → x ∉ rec.updaters → ox.data ≠ oa.data := by
        intro x ox hx hu hxd
        obtain ⟨ogx, e1, e2⟩ := m.some hx
        exact hu ((mem_updaters hinv hrec e1).mp (e2.trans hxd))
      simp only [step, ha, hrech, resizeImpl] at hs
      by_cases hm : mustRealloc lazy (Storage.size r).val oa.bufSize shrink = true
      · simp only [if_pos hm, realloc] at hs
        cases hfr : freeBuf h rec.ptr with
        | error e => rw [hfr] at hs; cases hs
        | ok h0 =>
          obtain ⟨f1, f2, f3, f4, f5⟩ := freeBuf_freed hfr
          simp only [hfr] at hs
          set cap := allocSize lazy (Storage.size r).val slack with hcap
          set h2 : Heap n := { (h0.setRec oa.data (some { rec with ptr := some h0.nextBuf })).setBuf h0.nextBuf
            (.live cap) with nextBuf := h0.nextBuf + 1 } with hh2
          obtain ⟨h'', e1, e2, e3, e4, e5, e6⟩ := updateAll_mend m hinv ha hrech h2 r cap cap oa.fast
            { rec with ptr := some h0.nextBuf } f3 (by simp [hh2, Heap.setBuf, Heap.setRec])
          rw [hs] at e1
          cases e1
          refine stale_step hst (fun b hb => ?_) fun x ob rec' hx hr => ?_
          · rw [e3]
            have hne : b ≠ h0.nextBuf := by
              rintro rfl
              rw [m.bufs, f5, m.nextBuf, hinv.fresh_buf _ le_rfl] at hb
              cases hb
            simp only [hh2, Heap.setBuf, Heap.setRec, update_apply]
            rw [if_neg hne]
            exact f1 b hb
          · rw [e6] at hx
            rw [e2] at hr
            by_cases hu : x ∈ rec.updaters
            · rw [if_pos hu] at hx
              cases hx
              simp only [hh2, Heap.setBuf, Heap.setRec, update_self] at hr
              cases hr
              exact Or.inl rfl
            · rw [if_neg hu] at hx
              have hxd := hout x ob hx hu
              simp only [hh2, Heap.setBuf, Heap.setRec, update_apply] at hr
              rw [if_neg hxd, f4] at hr
              exact Or.inr ⟨x, ob, rec', hx, rfl, hr, Or.inl rfl⟩
      · rw [if_neg hm] at hs
        obtain ⟨h'', e1, e2, e3, e4, e5, e6⟩ := updateAll_mend m hinv ha hrech h r oa.bufSize oa.bufSize oa.fast rec rfl hrech
        rw [hs] at e1
        cases e1
        refine stale_step hst (fun b hb => by rw [e3, hb]) fun x ob rec' hx hr => ?_
        rw [e6] at hx
        rw [e2] at hr
        by_cases hu : x ∈ rec.updaters
        · rw [if_pos hu] at hx
          cases hx
          rw [hrech] at hr
          cases hr
          exact Or.inl rfl
        · rw [if_neg hu] at hx
          exact Or.inr ⟨x, ob, rec', hx, rfl, hr, Or.inl rfl⟩

theorem fail_stale {lazy : Bool} {h h' : Heap n} (hst : Stale h) {a : ℕ} {r : Range (n + 1)} {shrink : Bool} {slack : ℕ}
    (hs : failResize lazy h a r shrink slack = .ok h') : Stale h' := by
  cases ha : h.objs a with
  | none => simp [failResize, ha] at hs
  | some oa =>
    cases hr : h.recs oa.data with
    | none => simp [failResize, ha, hr] at hs
    | some rec =>
      simp only [failResize, ha, hr] at hs
      by_cases hm : mustRealloc lazy (Storage.size r).val oa.bufSize shrink = true
      · rw [if_pos hm] at hs
        cases hfr : freeBuf h rec.ptr with
        | error e => rw [hfr] at hs; cases hs
        | ok h0 =>
          obtain ⟨f1, f2, f3, f4, f5⟩ := freeBuf_freed hfr
          rw [hfr] at hs
          cases hs
          refine stale_step hst f1 fun x ob rec' hx hr' => Or.inr ?_
          have key : ∃ y oy, h.objs y = some oy ∧ oy.fast = ob.fast ∧ oy.data = ob.data := by
            simp only [Heap.setRec, Heap.setObj, update_apply] at hx
            by_cases hxa : x = a
            · rw [if_pos hxa] at hx
              cases hx
              exact ⟨a, oa, ha, rfl, rfl⟩
            · rw [if_neg hxa, f3] at hx
              exact ⟨x, ob, hx, rfl, rfl⟩
          obtain ⟨y, oy, e1, e2, e3⟩ := key
          simp only [Heap.setRec, Heap.setObj, update_apply, f4] at hr'
          by_cases hd : ob.data = oa.data
          · exact ⟨y, oy, rec, e1, e2, by rw [e3, hd, hr], Or.inr f2⟩
          · rw [if_neg hd] at hr'
            exact ⟨y, oy, rec', e1, e2, by rw [e3, hr'], Or.inl rfl⟩
      · rw [if_neg hm] at hs; cases hs

end Schnek.Lemma.Alloc
