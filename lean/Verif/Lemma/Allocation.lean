import Verif.Model.Allocation
import Verif.Lemma.Storage

/-!
# Helper lemmas: the heap invariant
-/

namespace Schnek.Lemma.Alloc

open Schnek Schnek.Spec Schnek.Lemma Function Schnek.Alloc

variable {n : ℕ}

/-- an object's shape information describes the buffer `ptr` -/
def Shape (o : Order) (lazy : Bool) (bufs : ℕ → Buf) (ob : Obj n) : Option ℕ → Prop
  | none => ob.size = 0 ∧ (lazy = true → ob.bufSize = 0) ∧ ob.fast.1 = none
  | some b => ∃ cap, bufs b = .live cap ∧ ob.size = (Storage.size ob.range).val ∧ ob.size ≤ cap ∧
      ob.fast = (some b, fastOff o ob.range) ∧ (lazy = true → ob.bufSize ≤ cap)

/-- the invariant, except that object `a` may still be listed in record `d` although it does not
use it any more -/
structure InvW (o : Order) (lazy : Bool) (h : Heap n) (W : ℕ → ℕ → Prop) : Prop where
  obj_rec : ∀ x ob, h.objs x = some ob → ∃ rec, h.recs ob.data = some rec ∧ x ∈ rec.holders ∧
    x ∈ rec.updaters
  holder : ∀ d rec, h.recs d = some rec → ∀ x ∈ rec.holders, W x d ∨ ∃ ob, h.objs x = some ob ∧ ob.data = d
  holder_ne : ∀ d rec, h.recs d = some rec → rec.holders ≠ []
  holder_nd : ∀ d rec, h.recs d = some rec → rec.holders.Nodup
  upd : ∀ d rec, h.recs d = some rec → ∀ x ∈ rec.updaters,
    (W x d ∧ rec.holders = [x]) ∨ ∃ ob, h.objs x = some ob ∧ ob.data = d
  upd_nd : ∀ d rec, h.recs d = some rec → rec.updaters.Nodup
  shape : ∀ x ob rec, h.objs x = some ob → h.recs ob.data = some rec → Shape o lazy h.bufs ob rec.ptr
  share : ∀ x y ox oy, h.objs x = some ox → h.objs y = some oy → ox.data = oy.data →
    ox.range = oy.range ∧ ox.size = oy.size ∧ ox.fast = oy.fast
  ptr_live : ∀ d rec b, h.recs d = some rec → rec.ptr = some b → ∃ cap, h.bufs b = .live cap
  ptr_inj : ∀ d d' rec rec' b, h.recs d = some rec → h.recs d' = some rec' → rec.ptr = some b →
    rec'.ptr = some b → d = d'
  owner : ∀ b cap, h.bufs b = .live cap → ∃ d rec, h.recs d = some rec ∧ rec.ptr = some b
  fresh_rec : ∀ d, h.nextRec ≤ d → h.recs d = none
  fresh_buf : ∀ b, h.nextBuf ≤ b → h.bufs b = .unused

/-- the invariant -/
abbrev Inv (o : Order) (lazy : Bool) (h : Heap n) : Prop := InvW o lazy h (fun _ _ => False)

theorem inv_empty (o : Order) (lazy : Bool) : Inv o lazy (Heap.empty : Heap n) := by
  constructor <;> simp [Heap.empty]

theorem updateAll_spec (o : Order) (r : Range (n + 1)) (bs d : ℕ) (rec : Rec) :
    ∀ (l : List ℕ) (h : Heap n), h.recs d = some rec →
      (∀ x ∈ l, ∃ ob, h.objs x = some ob ∧ ob.data = d) →
      ∃ h', updateAll o r bs h l = .ok h' ∧ h'.recs = h.recs ∧ h'.bufs = h.bufs ∧
        h'.nextRec = h.nextRec ∧ h'.nextBuf = h.nextBuf ∧
        ∀ x, h'.objs x = if x ∈ l then some ⟨d, (Storage.size r).val, r, bs, (rec.ptr, fastOff o r)⟩
          else h.objs x
  | [], h, _, _ => ⟨h, rfl, rfl, rfl, rfl, rfl, by simp⟩
  | a :: l, h, hrec, hl => by
    obtain ⟨ob, hob, hd⟩ := hl a (by simp)
    set h1 := h.setObj a (some ⟨ob.data, (Storage.size r).val, r, bs, (rec.ptr, fastOff o r)⟩) with hh1
    have hcb : callback o r bs h a = .ok h1 := by
      simp only [callback, hob, hd, hrec, hh1]
    obtain ⟨h', e1, e2, e3, e4, e5, e6⟩ := updateAll_spec o r bs d rec l h1 hrec (by
      intro x hx
      by_cases hxa : x = a
      · subst hxa; exact ⟨⟨ob.data, (Storage.size r).val, r, bs, (rec.ptr, fastOff o r)⟩, by simp [hh1, Heap.setObj], hd⟩
      · obtain ⟨ob', h1', h2'⟩ := hl x (by simp [hx])
        exact ⟨ob', by simp [hh1, Heap.setObj, hxa, h1'], h2'⟩)
    refine ⟨h', ?_, e2, e3, e4, e5, fun x => ?_⟩
    · simp only [updateAll, List.foldlM_cons, hcb] at e1 ⊢
      exact e1
    · rw [e6 x]
      by_cases hxl : x ∈ l
      · simp [hxl]
      · by_cases hxa : x = a
        · subst hxa; simp [hxl, hh1, Heap.setObj, hd]
        · simp [hxl, hxa, hh1, Heap.setObj]

theorem release_inv {o : Order} {lazy : Bool} {h : Heap n} {a d : ℕ} {rec : Rec}
    (hinv : InvW o lazy h (fun x d' => x = a ∧ d' = d)) (hrec : h.recs d = some rec)
    (ha : a ∈ rec.holders) (hnot : ∀ ob, h.objs a = some ob → ob.data ≠ d) :
    ∃ h', release h a d = .ok h' ∧ Inv o lazy h' ∧ h'.objs = h.objs := by
  simp only [release, hrec]
  by_cases he : rec.holders.erase a = []
  · rw [if_pos he]
    -- the last holder: no live object uses `d`
    have hhold : rec.holders = [a] := by
      have hp := List.perm_cons_erase ha
      rw [he] at hp
      exact List.perm_singleton.mp hp
    have hnone : ∀ x ob, h.objs x = some ob → ob.data ≠ d := by
      intro x ob hx hd
      obtain ⟨rec', h1, h2, _⟩ := hinv.obj_rec x ob hx
      rw [hd, hrec] at h1
      cases h1
      rw [hhold] at h2
      simp only [List.mem_singleton] at h2
      subst h2
      exact hnot ob hx hd
    set h1 := h.setRec d none with hh1
    have hrecs : ∀ d', h1.recs d' = if d' = d then none else h.recs d' := by
      intro d'; simp [hh1, Heap.setRec, Function.update_apply]
    have hrecs' : ∀ d' rec', h1.recs d' = some rec' → d' ≠ d ∧ h.recs d' = some rec' := by
      intro d' rec' h'
      rw [hrecs] at h'
      by_cases hdd : d' = d
      · simp [hdd] at h'
      · simp [hdd] at h'; exact ⟨hdd, h'⟩
    have build : ∀ (bufs' : ℕ → Buf), (∀ b, rec.ptr ≠ some b → bufs' b = h.bufs b) →
        (∀ b cap, bufs' b = .live cap → rec.ptr ≠ some b) →
        (∀ b, h.nextBuf ≤ b → bufs' b = .unused) →
        Inv o lazy { h1 with bufs := bufs' } := by
      intro bufs' hb1 hb2 hb3
      constructor
      · intro x ob hx
        obtain ⟨rec', e1, e2, e3⟩ := hinv.obj_rec x ob hx
        refine ⟨rec', ?_, e2, e3⟩
        show h1.recs ob.data = some rec'
        rw [hrecs, if_neg (hnone x ob hx), e1]
      · intro d' rec' hr x hx
        obtain ⟨hdd, hr'⟩ := hrecs' d' rec' hr
        rcases hinv.holder d' rec' hr' x hx with ⟨_, h2⟩ | h2
        · exact absurd h2 hdd
        · exact Or.inr h2
      · intro d' rec' hr; exact hinv.holder_ne d' rec' (hrecs' d' rec' hr).2
      · intro d' rec' hr; exact hinv.holder_nd d' rec' (hrecs' d' rec' hr).2
      · intro d' rec' hr x hx
        obtain ⟨hdd, hr'⟩ := hrecs' d' rec' hr
        rcases hinv.upd d' rec' hr' x hx with ⟨⟨_, h2⟩, _⟩ | h2
        · exact absurd h2 hdd
        · exact Or.inr h2
      · intro d' rec' hr; exact hinv.upd_nd d' rec' (hrecs' d' rec' hr).2
      · intro x ob rec' hx hr
        obtain ⟨hdd, hr'⟩ := hrecs' _ rec' hr
        have hs := hinv.shape x ob rec' hx hr'
        cases hp : rec'.ptr with
        | none => rw [hp] at hs; exact hs
        | some b =>
          rw [hp] at hs
          obtain ⟨cap, c1, c2⟩ := hs
          refine ⟨cap, ?_, c2⟩
          show bufs' b = _
          rw [hb1 b (fun hc => hdd (hinv.ptr_inj _ _ _ _ b hr' hrec hp hc)), c1]
      · intro x y ox oy hx hy; exact hinv.share x y ox oy hx hy
      · intro d' rec' b hr hp
        obtain ⟨hdd, hr'⟩ := hrecs' d' rec' hr
        obtain ⟨cap, hc⟩ := hinv.ptr_live d' rec' b hr' hp
        refine ⟨cap, ?_⟩
        show bufs' b = _
        rw [hb1 b (fun hc => hdd (hinv.ptr_inj _ _ _ _ b hr' hrec hp hc)), hc]
      · intro d1 d2 r1 r2 b h1' h2'
        exact hinv.ptr_inj d1 d2 r1 r2 b (hrecs' _ _ h1').2 (hrecs' _ _ h2').2
      · intro b cap hb
        have hne := hb2 b cap hb
        have hb' : h.bufs b = .live cap := by rw [← hb1 b hne]; exact hb
        obtain ⟨d', rec', e1, e2⟩ := hinv.owner b cap hb'
        refine ⟨d', rec', ?_, e2⟩
        show h1.recs d' = _
        rw [hrecs, if_neg, e1]
        rintro rfl
        rw [hrec] at e1; cases e1
        exact hne e2
      · intro d' hd'
        show h1.recs d' = none
        rw [hrecs]
        by_cases hdd : d' = d
        · simp [hdd]
        · simp only [hdd, if_false]; exact hinv.fresh_rec d' hd'
      · exact hb3
    cases hp : rec.ptr with
    | none =>
      refine ⟨h1, rfl, ?_, rfl⟩
      have := build h.bufs (fun _ _ => rfl) (fun b cap _ hc => by rw [hp] at hc; cases hc)
        hinv.fresh_buf
      exact this
    | some b =>
      obtain ⟨cap, hcap⟩ := hinv.ptr_live d rec b hrec hp
      refine ⟨h1.setBuf b .freed, ?_, ?_, rfl⟩
      · have : h1.bufs b = .live cap := hcap
        simp only [freeBuf, this]
      · refine build (update h.bufs b .freed) ?_ ?_ ?_
        · intro b' hb'
          rw [hp] at hb'
          rw [update_of_ne (fun hc => hb' (by rw [hc]))]
        · intro b' cap' hb' hc
          rw [hp] at hc; cases hc
          simp at hb'
        · intro b' hb'
          by_cases hbb : b' = b
          · subst hbb
            rw [hinv.fresh_buf b' hb'] at hcap; cases hcap
          · rw [update_of_ne hbb]; exact hinv.fresh_buf b' hb'
  · rw [if_neg he]
    refine ⟨_, rfl, ?_, rfl⟩
    set rec1 : Rec := { rec with holders := rec.holders.erase a } with hrec1
    set h1 := h.setRec d (some rec1) with hh1
    have hrecs : ∀ d', h1.recs d' = if d' = d then some rec1 else h.recs d' := by
      intro d'; simp [hh1, Heap.setRec, Function.update_apply]
    have hcases : ∀ d' rec', h1.recs d' = some rec' →
        (d' = d ∧ rec' = rec1) ∨ (d' ≠ d ∧ h.recs d' = some rec') := by
      intro d' rec' h'
      rw [hrecs] at h'
      by_cases hdd : d' = d
      · simp [hdd] at h'; exact Or.inl ⟨hdd, h'.symm⟩
      · simp [hdd] at h'; exact Or.inr ⟨hdd, h'⟩
    -- the old record with the same pointer
    have hold : ∀ d' rec', h1.recs d' = some rec' → ∃ rec'', h.recs d' = some rec'' ∧
        rec''.ptr = rec'.ptr ∧ rec''.updaters = rec'.updaters := by
      intro d' rec' h'
      rcases hcases d' rec' h' with ⟨rfl, rfl⟩ | ⟨_, h2⟩
      · exact ⟨rec, hrec, rfl, rfl⟩
      · exact ⟨rec', h2, rfl, rfl⟩
    constructor
    · intro x ob hx
      obtain ⟨rec', e1, e2, e3⟩ := hinv.obj_rec x ob hx
      by_cases hd : ob.data = d
      · rw [hd, hrec] at e1; cases e1
        refine ⟨rec1, by rw [hrecs, if_pos hd], ?_, e3⟩
        have hxa : x ≠ a := by rintro rfl; exact hnot ob hx hd
        exact (List.mem_erase_of_ne hxa).mpr e2
      · exact ⟨rec', by rw [hrecs, if_neg hd, e1], e2, e3⟩
    · intro d' rec' hr x hx
      rcases hcases d' rec' hr with ⟨rfl, rfl⟩ | ⟨hdd, h2⟩
      · have hnd := hinv.holder_nd d' rec hrec
        have hx' := (List.Nodup.mem_erase_iff hnd).mp hx
        rcases hinv.holder d' rec hrec x hx'.2 with ⟨h3, _⟩ | h3
        · exact absurd h3 hx'.1
        · exact Or.inr h3
      · rcases hinv.holder d' rec' h2 x hx with ⟨_, h3⟩ | h3
        · exact absurd h3 hdd
        · exact Or.inr h3
    · intro d' rec' hr
      rcases hcases d' rec' hr with ⟨rfl, rfl⟩ | ⟨hdd, h2⟩
      · exact he
      · exact hinv.holder_ne d' rec' h2
    · intro d' rec' hr
      rcases hcases d' rec' hr with ⟨rfl, rfl⟩ | ⟨hdd, h2⟩
      · exact (hinv.holder_nd d' rec hrec).erase a
      · exact hinv.holder_nd d' rec' h2
    · intro d' rec' hr x hx
      obtain ⟨rec'', e1, e2, e3⟩ := hold d' rec' hr
      rcases hinv.upd d' rec'' e1 x (e3 ▸ hx) with ⟨⟨h3, h4⟩, h5⟩ | h3
      · exfalso
        subst h3; subst h4
        rw [hrec] at e1; cases e1
        rw [h5] at he; simp at he
      · exact Or.inr h3
    · intro d' rec' hr
      obtain ⟨rec'', e1, e2, e3⟩ := hold d' rec' hr
      rw [← e3]; exact hinv.upd_nd d' rec'' e1
    · intro x ob rec' hx hr
      obtain ⟨rec'', e1, e2, e3⟩ := hold _ rec' hr
      rw [← e2]; exact hinv.shape x ob rec'' hx e1
    · intro x y ox oy hx hy; exact hinv.share x y ox oy hx hy
    · intro d' rec' b hr hp
      obtain ⟨rec'', e1, e2, e3⟩ := hold _ rec' hr
      exact hinv.ptr_live d' rec'' b e1 (e2.trans hp)
    · intro d1 d2 r1 r2 b h1' h2' hp1 hp2
      obtain ⟨r1', e1, e2, e3⟩ := hold _ r1 h1'
      obtain ⟨r2', f1, f2, f3⟩ := hold _ r2 h2'
      exact hinv.ptr_inj d1 d2 r1' r2' b e1 f1 (e2.trans hp1) (f2.trans hp2)
    · intro b cap hb
      obtain ⟨d', rec', e1, e2⟩ := hinv.owner b cap hb
      by_cases hdd : d' = d
      · subst hdd
        rw [hrec] at e1; cases e1
        exact ⟨d', rec1, by rw [hrecs, if_pos rfl], e2⟩
      · exact ⟨d', rec', by rw [hrecs, if_neg hdd, e1], e2⟩
    · intro d' hd'
      rw [hrecs, if_neg]
      · exact hinv.fresh_rec d' hd'
      · rintro rfl
        have := hinv.fresh_rec d' hd'
        rw [hrec] at this; cases this
    · exact hinv.fresh_buf

theorem mem_addKey {l : List ℕ} {a x : ℕ} : x ∈ addKey l a ↔ x = a ∨ x ∈ l := by
  unfold addKey
  by_cases h : a ∈ l
  · rw [if_pos h]
    exact ⟨Or.inr, fun h' => h'.elim (fun e => e ▸ h) id⟩
  · rw [if_neg h]; simp

theorem nodup_addKey {l : List ℕ} {a : ℕ} (h : l.Nodup) : (addKey l a).Nodup := by
  unfold addKey
  by_cases h' : a ∈ l
  · rw [if_pos h']; exact h
  · rw [if_neg h']; exact List.nodup_cons.mpr ⟨h', h⟩

/-- construct -/
theorem construct_inv {o : Order} {lazy : Bool} {h : Heap n} {a : ℕ} (hinv : Inv o lazy h)
    (ha : h.objs a = none) : ∃ h', step o lazy h (.construct a) = .ok h' ∧ Inv o lazy h' := by
  simp only [step, ha]
  refine ⟨_, rfl, ?_⟩
  have hnr := hinv.fresh_rec h.nextRec le_rfl
  have hobj : ∀ x ob, (update h.objs a (some (⟨h.nextRec, 0, Range.default0 _, 0, (none, 0)⟩ : Obj n))) x
      = some ob → (x = a ∧ ob = ⟨h.nextRec, 0, Range.default0 _, 0, (none, 0)⟩) ∨
        (x ≠ a ∧ h.objs x = some ob ∧ ob.data ≠ h.nextRec) := by
    intro x ob hx
    by_cases hxa : x = a
    · subst hxa; simp at hx; exact Or.inl ⟨rfl, hx.symm⟩
    · rw [update_of_ne hxa] at hx
      refine Or.inr ⟨hxa, hx, fun hc => ?_⟩
      obtain ⟨rec, e, _⟩ := hinv.obj_rec x ob hx
      rw [hc, hnr] at e; cases e
  have hrec : ∀ d rec, (update h.recs h.nextRec (some (⟨none, [a], [a]⟩ : Rec))) d = some rec →
      (d = h.nextRec ∧ rec = ⟨none, [a], [a]⟩) ∨ (d ≠ h.nextRec ∧ h.recs d = some rec) := by
    intro d rec hd
    by_cases hdd : d = h.nextRec
    · subst hdd; simp at hd; exact Or.inl ⟨rfl, hd.symm⟩
    · rw [update_of_ne hdd] at hd; exact Or.inr ⟨hdd, hd⟩
  constructor
  · intro x ob hx
    rcases hobj x ob hx with ⟨rfl, rfl⟩ | ⟨hxa, hx', hd⟩
    · exact ⟨⟨none, [x], [x]⟩, by simp [Heap.setRec], by simp, by simp⟩
    · obtain ⟨rec, e⟩ := hinv.obj_rec x ob hx'
      exact ⟨rec, by simp [Heap.setRec, Heap.setObj, hd, e], e.2⟩
  · intro d rec hd x hx
    rcases hrec d rec hd with ⟨rfl, rfl⟩ | ⟨hdd, hd'⟩
    · simp at hx; subst hx
      exact Or.inr ⟨⟨h.nextRec, 0, Range.default0 _, 0, (none, 0)⟩, by simp [Heap.setRec, Heap.setObj], rfl⟩
    · rcases hinv.holder d rec hd' x hx with hf | ⟨ob, h1, h2⟩
      · exact hf.elim
      · refine Or.inr ⟨ob, ?_, h2⟩
        have : x ≠ a := by rintro rfl; rw [ha] at h1; cases h1
        simp [Heap.setRec, Heap.setObj, this, h1]
  · intro d rec hd
    rcases hrec d rec hd with ⟨rfl, rfl⟩ | ⟨hdd, hd'⟩
    · simp
    · exact hinv.holder_ne d rec hd'
  · intro d rec hd
    rcases hrec d rec hd with ⟨rfl, rfl⟩ | ⟨hdd, hd'⟩
    · simp
    · exact hinv.holder_nd d rec hd'
  · intro d rec hd x hx
    rcases hrec d rec hd with ⟨rfl, rfl⟩ | ⟨hdd, hd'⟩
    · simp at hx; subst hx
      exact Or.inr ⟨⟨h.nextRec, 0, Range.default0 _, 0, (none, 0)⟩, by simp [Heap.setRec, Heap.setObj], rfl⟩
    · rcases hinv.upd d rec hd' x hx with hf | ⟨ob, h1, h2⟩
      · exact hf.1.elim
      · refine Or.inr ⟨ob, ?_, h2⟩
        have : x ≠ a := by rintro rfl; rw [ha] at h1; cases h1
        simp [Heap.setRec, Heap.setObj, this, h1]
  · intro d rec hd
    rcases hrec d rec hd with ⟨rfl, rfl⟩ | ⟨hdd, hd'⟩
    · simp
    · exact hinv.upd_nd d rec hd'
  · intro x ob rec hx hd
    rcases hobj x ob hx with ⟨rfl, rfl⟩ | ⟨hxa, hx', hdn⟩
    · rcases hrec _ rec hd with ⟨_, rfl⟩ | ⟨hdd, hd'⟩
      · exact ⟨rfl, fun _ => rfl, rfl⟩
      · exact absurd rfl hdd
    · rcases hrec _ rec hd with ⟨hc, _⟩ | ⟨hdd, hd'⟩
      · exact absurd hc hdn
      · exact hinv.shape x ob rec hx' hd'
  · intro x y ox oy hx hy hxy
    rcases hobj x ox hx with ⟨rfl, rfl⟩ | ⟨hxa, hx', hdn⟩
    · rcases hobj y oy hy with ⟨rfl, rfl⟩ | ⟨hya, hy', hdn'⟩
      · exact ⟨rfl, rfl, rfl⟩
      · exact absurd hxy.symm hdn'
    · rcases hobj y oy hy with ⟨rfl, rfl⟩ | ⟨hya, hy', hdn'⟩
      · exact absurd hxy hdn
      · exact hinv.share x y ox oy hx' hy' hxy
  · intro d rec b hd hp
    rcases hrec d rec hd with ⟨rfl, rfl⟩ | ⟨hdd, hd'⟩
    · simp at hp
    · exact hinv.ptr_live d rec b hd' hp
  · intro d1 d2 r1 r2 b h1 h2 hp1 hp2
    rcases hrec d1 r1 h1 with ⟨rfl, rfl⟩ | ⟨hdd, hd'⟩
    · simp at hp1
    · rcases hrec d2 r2 h2 with ⟨rfl, rfl⟩ | ⟨hdd2, hd2'⟩
      · simp at hp2
      · exact hinv.ptr_inj d1 d2 r1 r2 b hd' hd2' hp1 hp2
  · intro b cap hb
    obtain ⟨d, rec, e1, e2⟩ := hinv.owner b cap hb
    refine ⟨d, rec, ?_, e2⟩
    have : d ≠ h.nextRec := by rintro rfl; rw [hnr] at e1; cases e1
    simp [Heap.setRec, Heap.setObj, this, e1]
  · intro d hd
    simp only at hd
    simp only [Heap.setRec, Heap.setObj]
    rw [update_of_ne (by omega)]
    exact hinv.fresh_rec d (by omega)
  · exact hinv.fresh_buf

/-- a new or re-assigned object `a` becomes a user of record `ob.data`; used by copy and assign -/
theorem copy_inv {o : Order} {lazy : Bool} {h : Heap n} {a b : ℕ} {ob : Obj n} {rec : Rec}
    (hinv : Inv o lazy h) (ha : h.objs a = none) (hb : h.objs b = some ob)
    (hrec0 : h.recs ob.data = some rec) :
    Inv o lazy ((h.setObj a (some ob)).setRec ob.data
          (some ⟨rec.ptr, addKey rec.updaters a, a :: rec.holders⟩)) := by
  set rec1 : Rec := ⟨rec.ptr, addKey rec.updaters a, a :: rec.holders⟩ with hrec1
  set h1 := (h.setObj a (some ob)).setRec ob.data (some rec1) with hh1
  have hobjs : ∀ x, h1.objs x = if x = a then some ob else h.objs x := by
    intro x; simp [hh1, Heap.setRec, Heap.setObj, update_apply]
  have hrecs : ∀ d, h1.recs d = if d = ob.data then some rec1 else h.recs d := by
    intro d; simp [hh1, Heap.setRec, Heap.setObj, update_apply]
  have hobj : ∀ x ox, h1.objs x = some ox → (x = a ∧ ox = ob) ∨ (x ≠ a ∧ h.objs x = some ox) := by
    intro x ox hx
    rw [hobjs] at hx
    by_cases hxa : x = a
    · simp [hxa] at hx; exact Or.inl ⟨hxa, hx.symm⟩
    · simp [hxa] at hx; exact Or.inr ⟨hxa, hx⟩
  have hold : ∀ d r, h1.recs d = some r → (d = ob.data ∧ r = rec1) ∨ (d ≠ ob.data ∧ h.recs d = some r) := by
    intro d r hd
    rw [hrecs] at hd
    by_cases hdd : d = ob.data
    · simp [hdd] at hd; exact Or.inl ⟨hdd, hd.symm⟩
    · simp [hdd] at hd; exact Or.inr ⟨hdd, hd⟩
  have hkeep : ∀ x ox, h.objs x = some ox → h1.objs x = some ox := by
    intro x ox hx
    rw [hobjs, if_neg]
    · exact hx
    · rintro rfl; rw [ha] at hx; cases hx
  have hanot : a ∉ rec.holders := by
    intro hc
    rcases hinv.holder _ rec hrec0 a hc with hf | ⟨oa, h1, _⟩
    · exact hf
    · rw [ha] at h1; cases h1
  constructor
  · intro x ox hx
    rcases hobj x ox hx with ⟨rfl, rfl⟩ | ⟨hxa, hx'⟩
    · exact ⟨rec1, by rw [hrecs, if_pos rfl], by simp [hrec1], mem_addKey.mpr (Or.inl rfl)⟩
    · obtain ⟨r, e1, e2, e3⟩ := hinv.obj_rec x ox hx'
      by_cases hd : ox.data = ob.data
      · rw [hd, hrec0] at e1; cases e1
        exact ⟨rec1, by rw [hrecs, if_pos hd], by simp [hrec1, e2], mem_addKey.mpr (Or.inr e3)⟩
      · exact ⟨r, by rw [hrecs, if_neg hd, e1], e2, e3⟩
  · intro d r hd x hx
    rcases hold d r hd with ⟨rfl, rfl⟩ | ⟨hdd, hd'⟩
    · rcases List.mem_cons.mp hx with rfl | hx
      · exact Or.inr ⟨ob, by rw [hobjs, if_pos rfl], rfl⟩
      · rcases hinv.holder _ rec hrec0 x hx with hf | ⟨ox, e1, e2⟩
        · exact hf.elim
        · exact Or.inr ⟨ox, hkeep x ox e1, e2⟩
    · rcases hinv.holder d r hd' x hx with hf | ⟨ox, e1, e2⟩
      · exact hf.elim
      · exact Or.inr ⟨ox, hkeep x ox e1, e2⟩
  · intro d r hd
    rcases hold d r hd with ⟨rfl, rfl⟩ | ⟨hdd, hd'⟩
    · simp [hrec1]
    · exact hinv.holder_ne d r hd'
  · intro d r hd
    rcases hold d r hd with ⟨rfl, rfl⟩ | ⟨hdd, hd'⟩
    · exact List.nodup_cons.mpr ⟨hanot, hinv.holder_nd _ rec hrec0⟩
    · exact hinv.holder_nd d r hd'
  · intro d r hd x hx
    rcases hold d r hd with ⟨rfl, rfl⟩ | ⟨hdd, hd'⟩
    · rcases mem_addKey.mp hx with rfl | hx
      · exact Or.inr ⟨ob, by rw [hobjs, if_pos rfl], rfl⟩
      · rcases hinv.upd _ rec hrec0 x hx with hf | ⟨ox, e1, e2⟩
        · exact hf.1.elim
        · exact Or.inr ⟨ox, hkeep x ox e1, e2⟩
    · rcases hinv.upd d r hd' x hx with hf | ⟨ox, e1, e2⟩
      · exact hf.1.elim
      · exact Or.inr ⟨ox, hkeep x ox e1, e2⟩
  · intro d r hd
    rcases hold d r hd with ⟨rfl, rfl⟩ | ⟨hdd, hd'⟩
    · exact nodup_addKey (hinv.upd_nd _ rec hrec0)
    · exact hinv.upd_nd d r hd'
  · intro x ox r hx hd
    have hx' : ∃ y, h.objs y = some ox := by
      rcases hobj x ox hx with ⟨rfl, rfl⟩ | ⟨hxa, hx'⟩
      · exact ⟨b, hb⟩
      · exact ⟨x, hx'⟩
    obtain ⟨y, hy⟩ := hx'
    rcases hold _ r hd with ⟨h2, rfl⟩ | ⟨hdd, hd'⟩
    · exact hinv.shape y ox rec hy (by rw [h2]; exact hrec0)
    · exact hinv.shape y ox r hy hd'
  · intro x y ox oy hx hy hxy
    have hx' : ∃ x, h.objs x = some ox := by
      rcases hobj x ox hx with ⟨rfl, rfl⟩ | ⟨hxa, hx'⟩
      · exact ⟨b, hb⟩
      · exact ⟨x, hx'⟩
    have hy' : ∃ x, h.objs x = some oy := by
      rcases hobj y oy hy with ⟨rfl, rfl⟩ | ⟨hxa, hx'⟩
      · exact ⟨b, hb⟩
      · exact ⟨y, hx'⟩
    obtain ⟨x', hx'⟩ := hx'
    obtain ⟨y', hy'⟩ := hy'
    exact hinv.share x' y' ox oy hx' hy' hxy
  · intro d r b' hd hp
    rcases hold d r hd with ⟨rfl, rfl⟩ | ⟨hdd, hd'⟩
    · exact hinv.ptr_live _ rec b' hrec0 hp
    · exact hinv.ptr_live d r b' hd' hp
  · intro d1 d2 r1 r2 b' h1' h2' hp1 hp2
    have f : ∀ d r, h1.recs d = some r → ∃ r', h.recs d = some r' ∧ r'.ptr = r.ptr := by
      intro d r hd
      rcases hold d r hd with ⟨rfl, rfl⟩ | ⟨hdd, hd'⟩
      · exact ⟨rec, hrec0, rfl⟩
      · exact ⟨r, hd', rfl⟩
    obtain ⟨r1', e1, e2⟩ := f d1 r1 h1'
    obtain ⟨r2', f1, f2⟩ := f d2 r2 h2'
    exact hinv.ptr_inj d1 d2 r1' r2' b' e1 f1 (e2.trans hp1) (f2.trans hp2)
  · intro b' cap hb'
    obtain ⟨d, r, e1, e2⟩ := hinv.owner b' cap hb'
    by_cases hdd : d = ob.data
    · subst hdd
      rw [hrec0] at e1; cases e1
      exact ⟨_, rec1, by rw [hrecs, if_pos rfl], e2⟩
    · exact ⟨d, r, by rw [hrecs, if_neg hdd, e1], e2⟩
  · intro d hd
    rw [hrecs, if_neg]
    · exact hinv.fresh_rec d hd
    · rintro rfl
      have := hinv.fresh_rec _ hd
      rw [hrec0] at this; cases this
  · exact hinv.fresh_buf

/-- destroy -/
theorem destroy_inv {o : Order} {lazy : Bool} {h : Heap n} {a : ℕ} {oa : Obj n} (hinv : Inv o lazy h)
    (ha : h.objs a = some oa) : ∃ h', step o lazy h (.destroy a) = .ok h' ∧ Inv o lazy h' := by
  obtain ⟨rec, hrec0, hah, hau⟩ := hinv.obj_rec a oa ha
  simp only [step, ha, hrec0]
  set rec1 : Rec := ⟨rec.ptr, rec.updaters.erase a, rec.holders⟩ with hrec1
  set h1 := (h.setObj a none).setRec oa.data (some rec1) with hh1
  have hobjs : ∀ x, h1.objs x = if x = a then none else h.objs x := by
    intro x; simp [hh1, Heap.setRec, Heap.setObj, update_apply]
  have hrecs : ∀ d, h1.recs d = if d = oa.data then some rec1 else h.recs d := by
    intro d; simp [hh1, Heap.setRec, Heap.setObj, update_apply]
  have hobj : ∀ x ox, h1.objs x = some ox → x ≠ a ∧ h.objs x = some ox := by
    intro x ox hx
    rw [hobjs] at hx
    by_cases hxa : x = a
    · simp [hxa] at hx
    · simp [hxa] at hx; exact ⟨hxa, hx⟩
  have hold : ∀ d r, h1.recs d = some r → (d = oa.data ∧ r = rec1) ∨ (d ≠ oa.data ∧ h.recs d = some r) := by
    intro d r hd
    rw [hrecs] at hd
    by_cases hdd : d = oa.data
    · simp [hdd] at hd; exact Or.inl ⟨hdd, hd.symm⟩
    · simp [hdd] at hd; exact Or.inr ⟨hdd, hd⟩
  have f : ∀ d r, h1.recs d = some r → ∃ r', h.recs d = some r' ∧ r'.ptr = r.ptr ∧
      r'.holders = r.holders := by
    intro d r hd
    rcases hold d r hd with ⟨rfl, rfl⟩ | ⟨hdd, hd'⟩
    · exact ⟨rec, hrec0, rfl, rfl⟩
    · exact ⟨r, hd', rfl, rfl⟩
  have hw : InvW o lazy h1 (fun x d' => x = a ∧ d' = oa.data) := by
    constructor
    · intro x ox hx
      obtain ⟨hxa, hx'⟩ := hobj x ox hx
      obtain ⟨r, e1, e2, e3⟩ := hinv.obj_rec x ox hx'
      by_cases hd : ox.data = oa.data
      · rw [hd, hrec0] at e1; cases e1
        exact ⟨rec1, by rw [hrecs, if_pos hd], e2, (List.mem_erase_of_ne hxa).mpr e3⟩
      · exact ⟨r, by rw [hrecs, if_neg hd, e1], e2, e3⟩
    · intro d r hd x hx
      obtain ⟨r', e1, e2, e3⟩ := f d r hd
      rcases hinv.holder d r' e1 x (e3 ▸ hx) with hf | ⟨ox, g1, g2⟩
      · exact hf.elim
      · by_cases hxa : x = a
        · subst hxa
          rw [ha] at g1; cases g1
          exact Or.inl ⟨rfl, g2.symm⟩
        · exact Or.inr ⟨ox, by rw [hobjs, if_neg hxa, g1], g2⟩
    · intro d r hd
      obtain ⟨r', e1, e2, e3⟩ := f d r hd
      rw [← e3]; exact hinv.holder_ne d r' e1
    · intro d r hd
      obtain ⟨r', e1, e2, e3⟩ := f d r hd
      rw [← e3]; exact hinv.holder_nd d r' e1
    · intro d r hd x hx
      rcases hold d r hd with ⟨rfl, rfl⟩ | ⟨hdd, hd'⟩
      · have hx' := (List.Nodup.mem_erase_iff (hinv.upd_nd _ rec hrec0)).mp hx
        rcases hinv.upd _ rec hrec0 x hx'.2 with hf | ⟨ox, g1, g2⟩
        · exact hf.1.elim
        · exact Or.inr ⟨ox, by rw [hobjs, if_neg hx'.1, g1], g2⟩
      · rcases hinv.upd d r hd' x hx with hf | ⟨ox, g1, g2⟩
        · exact hf.1.elim
        · refine Or.inr ⟨ox, ?_, g2⟩
          rw [hobjs, if_neg, g1]
          rintro rfl
          rw [ha] at g1; cases g1
          exact hdd g2.symm
    · intro d r hd
      rcases hold d r hd with ⟨rfl, rfl⟩ | ⟨hdd, hd'⟩
      · exact (hinv.upd_nd _ rec hrec0).erase a
      · exact hinv.upd_nd d r hd'
    · intro x ox r hx hd
      obtain ⟨hxa, hx'⟩ := hobj x ox hx
      obtain ⟨r', e1, e2, e3⟩ := f _ r hd
      rw [← e2]; exact hinv.shape x ox r' hx' e1
    · intro x y ox oy hx hy hxy
      exact hinv.share x y ox oy (hobj x ox hx).2 (hobj y oy hy).2 hxy
    · intro d r b' hd hp
      obtain ⟨r', e1, e2, e3⟩ := f _ r hd
      exact hinv.ptr_live d r' b' e1 (e2.trans hp)
    · intro d1 d2 r1 r2 b' h1' h2' hp1 hp2
      obtain ⟨r1', e1, e2, _⟩ := f d1 r1 h1'
      obtain ⟨r2', f1, f2, _⟩ := f d2 r2 h2'
      exact hinv.ptr_inj d1 d2 r1' r2' b' e1 f1 (e2.trans hp1) (f2.trans hp2)
    · intro b' cap hb'
      obtain ⟨d, r, e1, e2⟩ := hinv.owner b' cap hb'
      by_cases hdd : d = oa.data
      · subst hdd
        rw [hrec0] at e1; cases e1
        exact ⟨_, rec1, by rw [hrecs, if_pos rfl], e2⟩
      · exact ⟨d, r, by rw [hrecs, if_neg hdd, e1], e2⟩
    · intro d hd
      rw [hrecs, if_neg]
      · exact hinv.fresh_rec d hd
      · rintro rfl
        have := hinv.fresh_rec _ hd
        rw [hrec0] at this; cases this
    · exact hinv.fresh_buf
  obtain ⟨h', g1, g2, _⟩ := release_inv (rec := rec1) hw (by rw [hrecs, if_pos rfl]) hah (by
    intro ob hob
    rw [hobjs, if_pos rfl] at hob; cases hob)
  exact ⟨h', g1, g2⟩

/-- `a = b` does not disturb the invariant -/
def SafeAssign (lazy : Bool) (h : Heap n) (a b : ℕ) : Prop :=
  ∀ oa ob, h.objs a = some oa → h.objs b = some ob →
    (oa.data = ob.data ∨ ∀ x ox, h.objs x = some ox → ox.data = oa.data → x = a) ∧
    (lazy = true → oa.bufSize ≤ ob.bufSize)

theorem assign_inv {o : Order} {lazy : Bool} {h : Heap n} {a b : ℕ} {oa ob : Obj n}
    (hinv : Inv o lazy h) (ha : h.objs a = some oa) (hb : h.objs b = some ob)
    (hsafe : SafeAssign lazy h a b) :
    ∃ h', step o lazy h (.assign a b) = .ok h' ∧ Inv o lazy h' := by
  obtain ⟨rec, hrec0, hbh, hbu⟩ := hinv.obj_rec b ob hb
  obtain ⟨reca, hreca, hah, hau⟩ := hinv.obj_rec a oa ha
  obtain ⟨hs1, hs2⟩ := hsafe oa ob ha hb
  simp only [step, ha, hb, hrec0]
  set ob' : Obj n := { ob with bufSize := oa.bufSize } with hob'
  by_cases hd : oa.data = ob.data
  · rw [if_pos hd]
    refine ⟨_, rfl, ?_⟩
    have hreq : reca = rec := by
      rw [hd, hrec0] at hreca; exact (Option.some.inj hreca).symm
    subst hreq
    have hkey : addKey reca.updaters a = reca.updaters := by rw [addKey, if_pos hau]
    rw [hkey]
    have hobjs : ∀ x, ((h.setObj a (some ob')).setRec ob.data (some ⟨reca.ptr, reca.updaters, reca.holders⟩)).objs x
        = if x = a then some ob' else h.objs x := by
      intro x; simp [Heap.setRec, Heap.setObj, update_apply]
    have hrecs : ((h.setObj a (some ob')).setRec ob.data (some ⟨reca.ptr, reca.updaters, reca.holders⟩)).recs
        = h.recs := by
      funext d
      simp only [Heap.setRec, Heap.setObj, update_apply]
      by_cases hdd : d = ob.data
      · rw [if_pos hdd, hdd, hrec0]
      · rw [if_neg hdd]
    set h1 := (h.setObj a (some ob')).setRec ob.data (some ⟨reca.ptr, reca.updaters, reca.holders⟩) with hh1
    have hobj : ∀ x ox, h1.objs x = some ox → ∃ oy, h.objs x = some oy ∧ oy.data = ox.data ∧
        oy.range = ox.range ∧ oy.size = ox.size ∧ oy.fast = ox.fast ∧ oy.bufSize = ox.bufSize := by
      intro x ox hx
      rw [hobjs] at hx
      by_cases hxa : x = a
      · subst hxa
        rw [if_pos rfl] at hx
        cases hx
        obtain ⟨s1, s2, s3⟩ := hinv.share x b oa ob ha hb hd
        exact ⟨oa, ha, hd, s1, s2, s3, rfl⟩
      · rw [if_neg hxa] at hx
        exact ⟨ox, hx, rfl, rfl, rfl, rfl, rfl⟩
    have hobj2 : ∀ x ox, h.objs x = some ox → ∃ oy, h1.objs x = some oy ∧ oy.data = ox.data := by
      intro x ox hx
      rw [hobjs]
      by_cases hxa : x = a
      · subst hxa
        rw [ha] at hx; cases hx
        exact ⟨ob', by rw [if_pos rfl], hd.symm⟩
      · exact ⟨ox, by rw [if_neg hxa, hx], rfl⟩
    constructor
    · intro x ox hx
      obtain ⟨oy, e1, e2, _⟩ := hobj x ox hx
      rw [hrecs, ← e2]; exact hinv.obj_rec x oy e1
    · intro d r hr x hx
      rw [hrecs] at hr
      rcases hinv.holder d r hr x hx with hf | ⟨ox, e1, e2⟩
      · exact hf.elim
      · obtain ⟨oy, f1, f2⟩ := hobj2 x ox e1
        exact Or.inr ⟨oy, f1, f2.trans e2⟩
    · intro d r hr; rw [hrecs] at hr; exact hinv.holder_ne d r hr
    · intro d r hr; rw [hrecs] at hr; exact hinv.holder_nd d r hr
    · intro d r hr x hx
      rw [hrecs] at hr
      rcases hinv.upd d r hr x hx with hf | ⟨ox, e1, e2⟩
      · exact hf.1.elim
      · obtain ⟨oy, f1, f2⟩ := hobj2 x ox e1
        exact Or.inr ⟨oy, f1, f2.trans e2⟩
    · intro d r hr; rw [hrecs] at hr; exact hinv.upd_nd d r hr
    · intro x ox r hx hr
      rw [hrecs] at hr
      obtain ⟨oy, e1, e2, e3, e4, e5, e6⟩ := hobj x ox hx
      have := hinv.shape x oy r e1 (by rw [e2]; exact hr)
      show Shape o lazy h.bufs ox r.ptr
      cases hp : r.ptr with
      | none => rw [hp] at this; simpa [Shape, e4, e5, e6] using this
      | some b' => rw [hp] at this; simpa [Shape, e3, e4, e5, e6] using this
    · intro x y ox oy hx hy hxy
      obtain ⟨ox', e1, e2, e3, e4, e5, _⟩ := hobj x ox hx
      obtain ⟨oy', f1, f2, f3, f4, f5, _⟩ := hobj y oy hy
      have := hinv.share x y ox' oy' e1 f1 (by rw [e2, f2, hxy])
      rw [← e3, ← e4, ← e5, ← f3, ← f4, ← f5]; exact this
    · intro d r b' hr; rw [hrecs] at hr; exact hinv.ptr_live d r b' hr
    · intro d1 d2 r1 r2 b' h1' h2'; rw [hrecs] at h1' h2'; exact hinv.ptr_inj d1 d2 r1 r2 b' h1' h2'
    · intro b' cap hb'; rw [hrecs]; exact hinv.owner b' cap hb'
    · intro d' hd'; rw [hrecs]; exact hinv.fresh_rec d' hd'
    · exact hinv.fresh_buf
  · rw [if_neg hd]
    have hsole : ∀ x ox, h.objs x = some ox → ox.data = oa.data → x = a := by
      rcases hs1 with h' | h'
      · exact absurd h' hd
      · exact h'
    have hab : b ≠ a := by
      rintro rfl
      rw [ha] at hb; cases hb; exact hd rfl
    have hheq : reca.holders = [a] := by
      have hall : ∀ x ∈ reca.holders, x = a := by
        intro x hx
        rcases hinv.holder _ reca hreca x hx with hf | ⟨ox, e1, e2⟩
        · exact hf.elim
        · exact hsole x ox e1 e2
      have hnd := hinv.holder_nd _ reca hreca
      match hh : reca.holders, hah, hall, hnd with
      | [y], _, hall, _ => rw [hall y (by simp)]
      | y :: z :: l, _, hall, hnd =>
        exfalso
        have h1 := hall y (by simp)
        have h2 := hall z (by simp)
        simp [h1, h2] at hnd
    set rec1 : Rec := ⟨rec.ptr, addKey rec.updaters a, a :: rec.holders⟩ with hrec1
    set h1 := (h.setObj a (some ob')).setRec ob.data (some rec1) with hh1
    have hobjs : ∀ x, h1.objs x = if x = a then some ob' else h.objs x := by
      intro x; simp [hh1, Heap.setRec, Heap.setObj, update_apply]
    have hrecs : ∀ d, h1.recs d = if d = ob.data then some rec1 else h.recs d := by
      intro d; simp [hh1, Heap.setRec, Heap.setObj, update_apply]
    have hobj : ∀ x ox, h1.objs x = some ox → (x = a ∧ ox = ob') ∨ (x ≠ a ∧ h.objs x = some ox) := by
      intro x ox hx
      rw [hobjs] at hx
      by_cases hxa : x = a
      · simp [hxa] at hx; exact Or.inl ⟨hxa, hx.symm⟩
      · simp [hxa] at hx; exact Or.inr ⟨hxa, hx⟩
    have hold : ∀ d r, h1.recs d = some r → (d = ob.data ∧ r = rec1) ∨ (d ≠ ob.data ∧ h.recs d = some r) := by
      intro d r hd
      rw [hrecs] at hd
      by_cases hdd : d = ob.data
      · simp [hdd] at hd; exact Or.inl ⟨hdd, hd.symm⟩
      · simp [hdd] at hd; exact Or.inr ⟨hdd, hd⟩
    have f : ∀ d r, h1.recs d = some r → ∃ r', h.recs d = some r' ∧ r'.ptr = r.ptr := by
      intro d r hd
      rcases hold d r hd with ⟨rfl, rfl⟩ | ⟨hdd, hd'⟩
      · exact ⟨rec, hrec0, rfl⟩
      · exact ⟨r, hd', rfl⟩
    have hanot : a ∉ rec.holders := by
      intro hc
      rcases hinv.holder _ rec hrec0 a hc with hf | ⟨oa', g1, g2⟩
      · exact hf
      · rw [ha] at g1; cases g1; exact hd g2
    have hbs0 : rec.ptr = none → lazy = true → oa.bufSize = 0 := by
      intro hp hl
      have := hinv.shape b ob rec hb hrec0
      rw [hp] at this
      have h0 := this.2.1 hl
      have := hs2 hl
      omega
    have hw : InvW o lazy h1 (fun x d' => x = a ∧ d' = oa.data) := by
      constructor
      · intro x ox hx
        rcases hobj x ox hx with ⟨rfl, rfl⟩ | ⟨hxa, hx'⟩
        · exact ⟨rec1, by rw [hrecs, if_pos rfl], by simp [hrec1], mem_addKey.mpr (Or.inl rfl)⟩
        · obtain ⟨r, e1, e2, e3⟩ := hinv.obj_rec x ox hx'
          by_cases hdd : ox.data = ob.data
          · rw [hdd, hrec0] at e1; cases e1
            exact ⟨rec1, by rw [hrecs, if_pos hdd], by simp [hrec1, e2], mem_addKey.mpr (Or.inr e3)⟩
          · exact ⟨r, by rw [hrecs, if_neg hdd, e1], e2, e3⟩
      · intro d r hr x hx
        rcases hold d r hr with ⟨rfl, rfl⟩ | ⟨hdd, hd'⟩
        · rcases List.mem_cons.mp hx with rfl | hx
          · exact Or.inr ⟨ob', by rw [hobjs, if_pos rfl], rfl⟩
          · rcases hinv.holder _ rec hrec0 x hx with hf | ⟨ox, e1, e2⟩
            · exact hf.elim
            · have hxa : x ≠ a := by
                rintro rfl
                rw [ha] at e1; cases e1; exact hd e2
              exact Or.inr ⟨ox, by rw [hobjs, if_neg hxa, e1], e2⟩
        · rcases hinv.holder d r hd' x hx with hf | ⟨ox, e1, e2⟩
          · exact hf.elim
          · by_cases hxa : x = a
            · subst hxa
              rw [ha] at e1; cases e1
              exact Or.inl ⟨rfl, e2.symm⟩
            · exact Or.inr ⟨ox, by rw [hobjs, if_neg hxa, e1], e2⟩
      · intro d r hr
        rcases hold d r hr with ⟨rfl, rfl⟩ | ⟨hdd, hd'⟩
        · simp [hrec1]
        · exact hinv.holder_ne d r hd'
      · intro d r hr
        rcases hold d r hr with ⟨rfl, rfl⟩ | ⟨hdd, hd'⟩
        · exact List.nodup_cons.mpr ⟨hanot, hinv.holder_nd _ rec hrec0⟩
        · exact hinv.holder_nd d r hd'
      · intro d r hr x hx
        rcases hold d r hr with ⟨rfl, rfl⟩ | ⟨hdd, hd'⟩
        · rcases mem_addKey.mp hx with rfl | hx
          · exact Or.inr ⟨ob', by rw [hobjs, if_pos rfl], rfl⟩
          · rcases hinv.upd _ rec hrec0 x hx with hf | ⟨ox, e1, e2⟩
            · exact hf.1.elim
            · have hxa : x ≠ a := by
                rintro rfl
                rw [ha] at e1; cases e1; exact hd e2
              exact Or.inr ⟨ox, by rw [hobjs, if_neg hxa, e1], e2⟩
        · rcases hinv.upd d r hd' x hx with hf | ⟨ox, e1, e2⟩
          · exact hf.1.elim
          · by_cases hxa : x = a
            · subst hxa
              rw [ha] at e1; cases e1
              rw [← e2, hreca] at hd'; cases hd'
              exact Or.inl ⟨⟨rfl, e2.symm⟩, hheq⟩
            · exact Or.inr ⟨ox, by rw [hobjs, if_neg hxa, e1], e2⟩
      · intro d r hr
        rcases hold d r hr with ⟨rfl, rfl⟩ | ⟨hdd, hd'⟩
        · exact nodup_addKey (hinv.upd_nd _ rec hrec0)
        · exact hinv.upd_nd d r hd'
      · intro x ox r hx hr
        obtain ⟨r', g1, g2⟩ := f _ r hr
        rw [← g2]
        rcases hobj x ox hx with ⟨rfl, rfl⟩ | ⟨hxa, hx'⟩
        · have hr' : r' = rec := by
            have : h.recs ob.data = some r' := g1
            rw [hrec0] at this; exact (Option.some.inj this).symm
          subst hr'
          have hsb := hinv.shape b ob r' hb hrec0
          show Shape o lazy h.bufs ob' r'.ptr
          cases hp : r'.ptr with
          | none =>
            rw [hp] at hsb
            exact ⟨hsb.1, hbs0 hp, hsb.2.2⟩
          | some b' =>
            rw [hp] at hsb
            obtain ⟨cap, c1, c2, c3, c4, c5⟩ := hsb
            exact ⟨cap, c1, c2, c3, c4, fun hl => (hs2 hl).trans (c5 hl)⟩
        · exact hinv.shape x ox r' hx' g1
      · intro x y ox oy hx hy hxy
        have g : ∀ x ox, h1.objs x = some ox → ∃ y oy, h.objs y = some oy ∧ oy.data = ox.data ∧
            oy.range = ox.range ∧ oy.size = ox.size ∧ oy.fast = ox.fast := by
          intro x ox hx
          rcases hobj x ox hx with ⟨rfl, rfl⟩ | ⟨hxa, hx'⟩
          · exact ⟨b, ob, hb, rfl, rfl, rfl, rfl⟩
          · exact ⟨x, ox, hx', rfl, rfl, rfl, rfl⟩
        obtain ⟨x', ox', e1, e2, e3, e4, e5⟩ := g x ox hx
        obtain ⟨y', oy', f1, f2, f3, f4, f5⟩ := g y oy hy
        rw [← e3, ← e4, ← e5, ← f3, ← f4, ← f5]
        exact hinv.share x' y' ox' oy' e1 f1 (by rw [e2, f2, hxy])
      · intro d r b' hr hp
        obtain ⟨r', e1, e2⟩ := f _ r hr
        exact hinv.ptr_live d r' b' e1 (e2.trans hp)
      · intro d1 d2 r1 r2 b' h1' h2' hp1 hp2
        obtain ⟨r1', e1, e2⟩ := f d1 r1 h1'
        obtain ⟨r2', f1, f2⟩ := f d2 r2 h2'
        exact hinv.ptr_inj d1 d2 r1' r2' b' e1 f1 (e2.trans hp1) (f2.trans hp2)
      · intro b' cap hb'
        obtain ⟨d, r, e1, e2⟩ := hinv.owner b' cap hb'
        by_cases hdd : d = ob.data
        · subst hdd
          rw [hrec0] at e1; cases e1
          exact ⟨_, rec1, by rw [hrecs, if_pos rfl], e2⟩
        · exact ⟨d, r, by rw [hrecs, if_neg hdd, e1], e2⟩
      · intro d hd
        rw [hrecs, if_neg]
        · exact hinv.fresh_rec d hd
        · rintro rfl
          have := hinv.fresh_rec _ hd
          rw [hrec0] at this; cases this
      · exact hinv.fresh_buf
    obtain ⟨h', g1, g2, _⟩ := release_inv (a := a) (d := oa.data) (rec := reca) hw
      (by rw [hrecs, if_neg hd, hreca]) hah (by
        intro o' ho'
        rw [hobjs, if_pos rfl] at ho'; cases ho'
        exact fun hc => hd hc.symm)
    exact ⟨h', g1, g2⟩

/-- the state after a resize of the grids that use record `d` -/
theorem resized_inv {o : Order} {lazy : Bool} {h h' : Heap n} {d : ℕ} {rec : Rec} {r : Range (n + 1)}
    {bs : ℕ} {ptr' : Option ℕ}
    (hinv : Inv o lazy h) (hrec0 : h.recs d = some rec)
    (hrecs : ∀ d', h'.recs d' = if d' = d then some ⟨ptr', rec.updaters, rec.holders⟩ else h.recs d')
    (hobjs : ∀ x, h'.objs x = if x ∈ rec.updaters then
      some ⟨d, (Storage.size r).val, r, bs, (ptr', fastOff o r)⟩ else h.objs x)
    (hnr : h'.nextRec = h.nextRec)
    (hshape : Shape o lazy h'.bufs ⟨d, (Storage.size r).val, r, bs, (ptr', fastOff o r)⟩ ptr')
    (hkeep : ∀ b cap, rec.ptr ≠ some b → h.bufs b = .live cap → h'.bufs b = .live cap)
    (hown : ∀ b cap, h'.bufs b = .live cap → ptr' = some b ∨ (rec.ptr ≠ some b ∧ h.bufs b = .live cap))
    (hlive : ∀ b, ptr' = some b → ∃ cap, h'.bufs b = .live cap)
    (hinj : ∀ b d' rec', ptr' = some b → h.recs d' = some rec' → rec'.ptr = some b → d' = d)
    (hfresh : ∀ b, h'.nextBuf ≤ b → h'.bufs b = .unused) :
    Inv o lazy h' := by
  have hmem : ∀ x ox, h.objs x = some ox → (ox.data = d ↔ x ∈ rec.updaters) := by
    intro x ox hx
    constructor
    · intro hd
      obtain ⟨r', e1, _, e3⟩ := hinv.obj_rec x ox hx
      rw [hd, hrec0] at e1; cases e1
      exact e3
    · intro hu
      rcases hinv.upd d rec hrec0 x hu with hf | ⟨oy, e1, e2⟩
      · exact hf.1.elim
      · rw [hx] at e1; cases e1; exact e2
  have hobj : ∀ x ox, h'.objs x = some ox →
      (x ∈ rec.updaters ∧ ox = ⟨d, (Storage.size r).val, r, bs, (ptr', fastOff o r)⟩) ∨
      (ox.data ≠ d ∧ h.objs x = some ox) := by
    intro x ox hx
    rw [hobjs] at hx
    by_cases hu : x ∈ rec.updaters
    · rw [if_pos hu] at hx; cases hx; exact Or.inl ⟨hu, rfl⟩
    · rw [if_neg hu] at hx
      exact Or.inr ⟨fun hc => hu ((hmem x ox hx).mp hc), hx⟩
  have hobj2 : ∀ x ox, h.objs x = some ox → ∃ oy, h'.objs x = some oy ∧ oy.data = ox.data := by
    intro x ox hx
    rw [hobjs]
    by_cases hu : x ∈ rec.updaters
    · exact ⟨⟨d, (Storage.size r).val, r, bs, (ptr', fastOff o r)⟩, by rw [if_pos hu],
        ((hmem x ox hx).mpr hu).symm⟩
    · exact ⟨ox, by rw [if_neg hu, hx], rfl⟩
  have hold : ∀ d' r', h'.recs d' = some r' → (d' = d ∧ r' = ⟨ptr', rec.updaters, rec.holders⟩) ∨
      (d' ≠ d ∧ h.recs d' = some r') := by
    intro d' r' hd
    rw [hrecs] at hd
    by_cases hdd : d' = d
    · rw [if_pos hdd] at hd; cases hd; exact Or.inl ⟨hdd, rfl⟩
    · rw [if_neg hdd] at hd; exact Or.inr ⟨hdd, hd⟩
  have f : ∀ d' r', h'.recs d' = some r' → ∃ r'', h.recs d' = some r'' ∧ r''.updaters = r'.updaters ∧
      r''.holders = r'.holders := by
    intro d' r' hd
    rcases hold d' r' hd with ⟨rfl, rfl⟩ | ⟨hdd, hd'⟩
    · exact ⟨rec, hrec0, rfl, rfl⟩
    · exact ⟨r', hd', rfl, rfl⟩
  have keepOther : ∀ d' r' b, d' ≠ d → h.recs d' = some r' → r'.ptr = some b → rec.ptr ≠ some b := by
    intro d' r' b hdd hr hp hc
    exact hdd (hinv.ptr_inj d' d r' rec b hr hrec0 hp hc)
  constructor
  · intro x ox hx
    rcases hobj x ox hx with ⟨hu, rfl⟩ | ⟨hd, hx'⟩
    · rcases hinv.upd d rec hrec0 x hu with hf | ⟨oy, e1, e2⟩
      · exact hf.1.elim
      · obtain ⟨r', g1, g2, g3⟩ := hinv.obj_rec x oy e1
        rw [e2, hrec0] at g1; cases g1
        exact ⟨⟨ptr', rec.updaters, rec.holders⟩, by rw [hrecs, if_pos rfl], g2, g3⟩
    · obtain ⟨r', g1, g2⟩ := hinv.obj_rec x ox hx'
      exact ⟨r', by rw [hrecs, if_neg hd, g1], g2⟩
  · intro d' r' hr x hx
    obtain ⟨r'', e1, e2, e3⟩ := f d' r' hr
    rcases hinv.holder d' r'' e1 x (e3 ▸ hx) with hf | ⟨ox, g1, g2⟩
    · exact hf.elim
    · obtain ⟨oy, k1, k2⟩ := hobj2 x ox g1
      exact Or.inr ⟨oy, k1, k2.trans g2⟩
  · intro d' r' hr
    obtain ⟨r'', e1, e2, e3⟩ := f d' r' hr
    rw [← e3]; exact hinv.holder_ne d' r'' e1
  · intro d' r' hr
    obtain ⟨r'', e1, e2, e3⟩ := f d' r' hr
    rw [← e3]; exact hinv.holder_nd d' r'' e1
  · intro d' r' hr x hx
    obtain ⟨r'', e1, e2, e3⟩ := f d' r' hr
    rcases hinv.upd d' r'' e1 x (e2 ▸ hx) with hf | ⟨ox, g1, g2⟩
    · exact hf.1.elim
    · obtain ⟨oy, k1, k2⟩ := hobj2 x ox g1
      exact Or.inr ⟨oy, k1, k2.trans g2⟩
  · intro d' r' hr
    obtain ⟨r'', e1, e2, e3⟩ := f d' r' hr
    rw [← e2]; exact hinv.upd_nd d' r'' e1
  · intro x ox r' hx hr
    rcases hobj x ox hx with ⟨hu, rfl⟩ | ⟨hd, hx'⟩
    · rcases hold _ r' hr with ⟨_, rfl⟩ | ⟨hc, _⟩
      · exact hshape
      · exact absurd rfl hc
    · rcases hold _ r' hr with ⟨hc, _⟩ | ⟨_, hr'⟩
      · exact absurd hc hd
      · have hs := hinv.shape x ox r' hx' hr'
        cases hp : r'.ptr with
        | none => rw [hp] at hs; exact hs
        | some b =>
          rw [hp] at hs
          obtain ⟨cap, c1, c2⟩ := hs
          exact ⟨cap, hkeep b cap (keepOther _ r' b hd hr' hp) c1, c2⟩
  · intro x y ox oy hx hy hxy
    rcases hobj x ox hx with ⟨hu, rfl⟩ | ⟨hd, hx'⟩
    · rcases hobj y oy hy with ⟨hu', rfl⟩ | ⟨hd', hy'⟩
      · exact ⟨rfl, rfl, rfl⟩
      · exact absurd hxy.symm hd'
    · rcases hobj y oy hy with ⟨hu', rfl⟩ | ⟨hd', hy'⟩
      · exact absurd hxy hd
      · exact hinv.share x y ox oy hx' hy' hxy
  · intro d' r' b hr hp
    rcases hold d' r' hr with ⟨rfl, rfl⟩ | ⟨hdd, hr'⟩
    · exact hlive b hp
    · obtain ⟨cap, hc⟩ := hinv.ptr_live d' r' b hr' hp
      exact ⟨cap, hkeep b cap (keepOther _ r' b hdd hr' hp) hc⟩
  · intro d1 d2 r1 r2 b h1 h2 hp1 hp2
    rcases hold d1 r1 h1 with ⟨rfl, rfl⟩ | ⟨hdd1, hr1⟩
    · rcases hold d2 r2 h2 with ⟨rfl, rfl⟩ | ⟨hdd2, hr2⟩
      · rfl
      · exact (hinj b d2 r2 hp1 hr2 hp2).symm
    · rcases hold d2 r2 h2 with ⟨rfl, rfl⟩ | ⟨hdd2, hr2⟩
      · exact hinj b d1 r1 hp2 hr1 hp1
      · exact hinv.ptr_inj d1 d2 r1 r2 b hr1 hr2 hp1 hp2
  · intro b cap hb
    rcases hown b cap hb with hp | ⟨hp, hb'⟩
    · exact ⟨d, _, by rw [hrecs, if_pos rfl], hp⟩
    · obtain ⟨d', r', e1, e2⟩ := hinv.owner b cap hb'
      refine ⟨d', r', ?_, e2⟩
      rw [hrecs, if_neg, e1]
      rintro rfl
      rw [hrec0] at e1; cases e1
      exact hp e2
  · intro d' hd'
    rw [hnr] at hd'
    rw [hrecs, if_neg]
    · exact hinv.fresh_rec d' hd'
    · rintro rfl
      have := hinv.fresh_rec _ hd'
      rw [hrec0] at this; cases this
  · exact hfresh

theorem le_allocSize (lazy : Bool) (newSize slack : ℕ) : newSize ≤ allocSize lazy newSize slack := by
  unfold allocSize; split_ifs <;> omega

/-- resize -/
theorem resize_inv {o : Order} {lazy : Bool} {h : Heap n} {a : ℕ} {oa : Obj n} (hinv : Inv o lazy h)
    (ha : h.objs a = some oa) (r : Range (n + 1)) (shrink : Bool) (slack : ℕ) :
    ∃ h', step o lazy h (.resize a r shrink slack) = .ok h' ∧ Inv o lazy h' ∧
      (∀ x ox, h.objs x = some ox → ox.data = oa.data → ∃ oy, h'.objs x = some oy ∧
        oy.data = oa.data ∧ oy.range = r ∧ oy.size = (Storage.size r).val) ∧
      (∀ x ox, h.objs x = some ox → ox.data ≠ oa.data → h'.objs x = some ox) ∧
      (∀ x, h.objs x = none → h'.objs x = none) := by
  obtain ⟨rec, hrec0, hah, hau⟩ := hinv.obj_rec a oa ha
  have hmem : ∀ x ox, h.objs x = some ox → (ox.data = oa.data ↔ x ∈ rec.updaters) := by
    intro x ox hx
    constructor
    · intro hd
      obtain ⟨r', e1, _, e3⟩ := hinv.obj_rec x ox hx
      rw [hd, hrec0] at e1; cases e1
      exact e3
    · intro hu
      rcases hinv.upd _ rec hrec0 x hu with hf | ⟨oy, e1, e2⟩
      · exact hf.1.elim
      · rw [hx] at e1; cases e1; exact e2
  -- the second half of the statement follows from the description of the objects
  have hrest : ∀ (h' : Heap n) (bs : ℕ) (ptr' : Option ℕ),
      (∀ x, h'.objs x = if x ∈ rec.updaters then
        some ⟨oa.data, (Storage.size r).val, r, bs, (ptr', fastOff o r)⟩ else h.objs x) →
      (∀ x ox, h.objs x = some ox → ox.data = oa.data → ∃ oy, h'.objs x = some oy ∧
        oy.data = oa.data ∧ oy.range = r ∧ oy.size = (Storage.size r).val) ∧
      (∀ x ox, h.objs x = some ox → ox.data ≠ oa.data → h'.objs x = some ox) ∧
      (∀ x, h.objs x = none → h'.objs x = none) := by
    intro h' bs ptr' hobjs
    refine ⟨fun x ox hx hd => ⟨⟨oa.data, (Storage.size r).val, r, bs, (ptr', fastOff o r)⟩,
        by rw [hobjs, if_pos ((hmem x ox hx).mp hd)], rfl, rfl, rfl⟩,
      fun x ox hx hd => by rw [hobjs, if_neg (fun hc => hd ((hmem x ox hx).mpr hc)), hx],
      fun x hx => ?_⟩
    rw [hobjs, if_neg, hx]
    intro hu
    rcases hinv.upd _ rec hrec0 x hu with hf | ⟨oy, e1, e2⟩
    · exact hf.1.elim
    · rw [hx] at e1; cases e1
  -- calling the callbacks in a heap `h1` with unchanged objects
  have hupd : ∀ (h1 : Heap n) (bs bs' : ℕ) (rec1 : Rec), h1.objs = h.objs → h1.recs oa.data = some rec1 →
      ∃ h', updateAll o r bs (h1.setObj a (some ⟨oa.data, (Storage.size r).val, r, bs', oa.fast⟩))
          rec.updaters = .ok h' ∧ h'.recs = h1.recs ∧ h'.bufs = h1.bufs ∧
        h'.nextRec = h1.nextRec ∧ h'.nextBuf = h1.nextBuf ∧
        ∀ x, h'.objs x = if x ∈ rec.updaters then
          some ⟨oa.data, (Storage.size r).val, r, bs, (rec1.ptr, fastOff o r)⟩ else h.objs x := by
    intro h1 bs bs' rec1 ho1 hr1
    obtain ⟨h', e1, e2, e3, e4, e5, e6⟩ := updateAll_spec o r bs oa.data rec1 rec.updaters
      (h1.setObj a (some ⟨oa.data, (Storage.size r).val, r, bs', oa.fast⟩)) hr1 (by
        intro x hx
        by_cases hxa : x = a
        · subst hxa
          exact ⟨⟨oa.data, (Storage.size r).val, r, bs', oa.fast⟩, by simp [Heap.setObj], rfl⟩
        · rcases hinv.upd _ rec hrec0 x hx with hf | ⟨oy, e1, e2⟩
          · exact hf.1.elim
          · exact ⟨oy, by simp [Heap.setObj, hxa, ho1, e1], e2⟩)
    refine ⟨h', e1, e2, e3, e4, e5, fun x => ?_⟩
    rw [e6]
    by_cases hu : x ∈ rec.updaters
    · rw [if_pos hu, if_pos hu]
    · rw [if_neg hu, if_neg hu]
      have : x ≠ a := by rintro rfl; exact hu hau
      simp [Heap.setObj, this, ho1]
  simp only [step, ha, hrec0, resizeImpl]
  by_cases hm : mustRealloc lazy (Storage.size r).val oa.bufSize shrink = true
  · rw [if_pos hm]
    set cap := allocSize lazy (Storage.size r).val slack with hcap
    -- the heap after freeing the old buffer
    have hfree : ∃ h0, freeBuf h rec.ptr = .ok h0 ∧ h0.objs = h.objs ∧ h0.recs = h.recs ∧
        h0.nextRec = h.nextRec ∧ h0.nextBuf = h.nextBuf ∧
        (∀ b, rec.ptr ≠ some b → h0.bufs b = h.bufs b) ∧
        (∀ b c, h0.bufs b = .live c → rec.ptr ≠ some b) := by
      cases hp : rec.ptr with
      | none => exact ⟨h, rfl, rfl, rfl, rfl, rfl, fun _ _ => rfl, fun _ _ _ hc => by cases hc⟩
      | some b =>
        obtain ⟨c, hc⟩ := hinv.ptr_live _ rec b hrec0 hp
        refine ⟨h.setBuf b .freed, by simp only [freeBuf, hc], rfl, rfl, rfl, rfl, ?_, ?_⟩
        · intro b' hb'
          simp only [Heap.setBuf]
          rw [update_of_ne (fun e => hb' (by rw [e]))]
        · intro b' c' hb' he
          cases he
          simp [Heap.setBuf] at hb'
    obtain ⟨h0, f1, f2, f3, f4, f5, f6, f7⟩ := hfree
    simp only [realloc, f1]
    set h2 : Heap n := { (h0.setRec oa.data (some { rec with ptr := some h0.nextBuf })).setBuf h0.nextBuf
      (.live cap) with nextBuf := h0.nextBuf + 1 } with hh2
    obtain ⟨h', e1, e2, e3, e4, e5, e6⟩ := hupd h2 cap cap { rec with ptr := some h0.nextBuf } f2
      (by simp [hh2, Heap.setBuf, Heap.setRec])
    have hb2 : ∀ b, h'.bufs b = if b = h.nextBuf then .live cap else h0.bufs b := by
      intro b
      rw [e3]
      simp [hh2, Heap.setBuf, Heap.setRec, f5, update_apply]
    have hnb : ∀ b, rec.ptr = some b → b < h.nextBuf := by
      intro b hp
      obtain ⟨c, hc⟩ := hinv.ptr_live _ rec b hrec0 hp
      by_contra hcon
      rw [hinv.fresh_buf b (by omega)] at hc; cases hc
    refine ⟨h', e1, ?_, hrest h' cap (some h0.nextBuf) e6⟩
    refine resized_inv (ptr' := some h0.nextBuf) (bs := cap) (r := r) hinv hrec0 ?_ e6
      (by rw [e4]; exact f4) ?_ ?_ ?_ ?_ ?_ ?_
    · intro d'
      rw [e2]
      simp [hh2, Heap.setBuf, Heap.setRec, f3, update_apply]
    · exact ⟨cap, by rw [hb2, f5, if_pos rfl], rfl, le_allocSize _ _ _, rfl, fun _ => le_rfl⟩
    · intro b c hp hb
      rw [hb2, if_neg, f6 b hp, hb]
      rintro rfl
      rw [hinv.fresh_buf _ le_rfl] at hb; cases hb
    · intro b c hb
      rw [hb2] at hb
      by_cases hbn : b = h.nextBuf
      · left; rw [f5, hbn]
      · rw [if_neg hbn] at hb
        have hp := f7 b c hb
        exact Or.inr ⟨hp, by rw [← f6 b hp, hb]⟩
    · intro b hb
      cases hb
      exact ⟨cap, by rw [hb2, f5, if_pos rfl]⟩
    · intro b d' rec' hb hr hp
      cases hb
      obtain ⟨c, hc⟩ := hinv.ptr_live _ rec' _ hr hp
      rw [f5, hinv.fresh_buf _ le_rfl] at hc; cases hc
    · intro b hb
      have hb' : h.nextBuf + 1 ≤ b := by rw [e5] at hb; simpa [hh2, f5] using hb
      rw [hb2, if_neg (by omega), f6 b (fun hp => by have := hnb b hp; omega)]
      exact hinv.fresh_buf b (by omega)
  · rw [if_neg hm]
    obtain ⟨h', e1, e2, e3, e4, e5, e6⟩ := hupd h oa.bufSize oa.bufSize rec rfl hrec0
    have hlazy : lazy = true ∧ (Storage.size r).val ≤ oa.bufSize := by
      unfold mustRealloc at hm
      simp at hm
      exact ⟨hm.1.1, hm.1.2⟩
    have hs := hinv.shape a oa rec ha hrec0
    refine ⟨h', e1, ?_, hrest h' oa.bufSize rec.ptr e6⟩
    refine resized_inv (ptr' := rec.ptr) (bs := oa.bufSize) (r := r) hinv hrec0 ?_ e6
      e4 ?_ ?_ ?_ ?_ ?_ ?_
    · intro d'
      rw [e2]
      by_cases hdd : d' = oa.data
      · rw [if_pos hdd, hdd, hrec0]
      · rw [if_neg hdd]
    · rw [e3]
      cases hp : rec.ptr with
      | none =>
        rw [hp] at hs
        have := hs.2.1 hlazy.1
        exact ⟨by have := hlazy.2; show ZMod.val (Storage.size r) = 0; omega, fun _ => this, rfl⟩
      | some b =>
        rw [hp] at hs
        obtain ⟨cap, c1, c2, c3, c4, c5⟩ := hs
        exact ⟨cap, c1, rfl, hlazy.2.trans (c5 hlazy.1), rfl, c5⟩
    · intro b c _ hb
      rw [e3]; exact hb
    · intro b c hb
      rw [e3] at hb
      by_cases hp : rec.ptr = some b
      · exact Or.inl hp
      · exact Or.inr ⟨hp, hb⟩
    · intro b hp
      rw [e3]
      exact hinv.ptr_live _ rec b hrec0 hp
    · intro b d' rec' hp hr hp'
      exact hinv.ptr_inj d' oa.data rec' rec b hr hrec0 hp' hp
    · intro b hb
      rw [e3]; rw [e5] at hb
      exact hinv.fresh_buf b hb

/-- an operation is safe: everything except assignments that change what `a` shares while others
still use `a`'s old data -/
def SafeOp (lazy : Bool) (h : Heap n) : Op n → Prop
  | .assign a b => SafeAssign lazy h a b
  | _ => True

theorem step_inv {o : Order} {lazy : Bool} {h : Heap n} (hinv : Inv o lazy h) (op : Op n)
    (hs : SafeOp lazy h op) :
    step o lazy h op = .error .invalid ∨ ∃ h', step o lazy h op = .ok h' ∧ Inv o lazy h' := by
  cases op with
  | construct a =>
    cases ha : h.objs a with
    | none => exact Or.inr (construct_inv hinv ha)
    | some _ => left; simp [step, ha]
  | copy a b =>
    cases ha : h.objs a with
    | some _ => left; simp [step, ha]
    | none =>
      cases hb : h.objs b with
      | none => left; simp [step, ha, hb]
      | some ob =>
        obtain ⟨rec, hr, _⟩ := hinv.obj_rec b ob hb
        right
        exact ⟨_, by simp only [step, ha, hb, hr], copy_inv hinv ha hb hr⟩
  | assign a b =>
    cases ha : h.objs a with
    | none => left; simp [step, ha]
    | some oa =>
      cases hb : h.objs b with
      | none => left; simp [step, ha, hb]
      | some ob => exact Or.inr (assign_inv hinv ha hb hs)
  | resize a r shrink slack =>
    cases ha : h.objs a with
    | none => left; simp [step, ha]
    | some oa =>
      obtain ⟨h', e1, e2, _⟩ := resize_inv hinv ha r shrink slack
      exact Or.inr ⟨h', e1, e2⟩
  | destroy a =>
    cases ha : h.objs a with
    | none => left; simp [step, ha]
    | some oa => exact Or.inr (destroy_inv hinv ha)

theorem freeBuf_objs {h h' : Heap n} {p : Option ℕ} (hs : freeBuf h p = .ok h') : h'.objs = h.objs := by
  unfold freeBuf at hs
  cases p with
  | none => cases hs; rfl
  | some b =>
    simp only at hs
    cases hb : h.bufs b <;> rw [hb] at hs <;> cases hs
    rfl

theorem release_objs {h h' : Heap n} {a d : ℕ} (hs : release h a d = .ok h') : h'.objs = h.objs := by
  unfold release at hs
  cases hr : h.recs d with
  | none => rw [hr] at hs; cases hs
  | some rec =>
    simp only [hr] at hs
    by_cases he : rec.holders.erase a = []
    · rw [if_pos he] at hs; have := freeBuf_objs hs; exact this
    · rw [if_neg he] at hs; cases hs; rfl

theorem updateAll_bufs {o : Order} {r : Range (n + 1)} {bs : ℕ} :
    ∀ (l : List ℕ) (h h' : Heap n), updateAll o r bs h l = .ok h' → h'.bufs = h.bufs
  | [], h, h', hs => by cases hs; rfl
  | a :: l, h, h', hs => by
    simp only [updateAll, List.foldlM_cons] at hs
    cases hc : callback o r bs h a with
    | error e => rw [hc] at hs; cases hs
    | ok h1 =>
      rw [hc] at hs
      rw [updateAll_bufs l h1 h' hs]
      unfold callback at hc
      cases h0 : h.objs a with
      | none => rw [h0] at hc; cases hc
      | some ob =>
        simp only [h0] at hc
        cases h2 : h.recs ob.data with
        | none => rw [h2] at hc; cases hc
        | some rec => rw [h2] at hc; cases hc; rfl

/-- an allocated buffer never changes its capacity -/
theorem resize_keeps_cap {o : Order} {lazy : Bool} {h h' : Heap n} {a : ℕ} {oa : Obj n}
    (hinv : Inv o lazy h) (ha : h.objs a = some oa) {r : Range (n + 1)} {shrink : Bool} {slack : ℕ}
    (hs : step o lazy h (.resize a r shrink slack) = .ok h') {b c c' : ℕ} (hb : h.bufs b = .live c)
    (hb' : h'.bufs b = .live c') : c' = c := by
  obtain ⟨rec, hrec0, _⟩ := hinv.obj_rec a oa ha
  simp only [step, ha, hrec0, resizeImpl] at hs
  split_ifs at hs with hm
  · unfold realloc at hs
    cases hf : freeBuf h rec.ptr with
    | error e => rw [hf] at hs; cases hs
    | ok h0 =>
      rw [hf] at hs
      simp only at hs
      have h1 := updateAll_bufs _ _ _ hs
      rw [h1] at hb'
      simp only [Heap.setObj, Heap.setBuf, Heap.setRec, update_apply] at hb'
      have h0b : h0.nextBuf = h.nextBuf ∧ (h0.bufs b = .live c' → c' = c) := by
        unfold freeBuf at hf
        cases hp : rec.ptr with
        | none => rw [hp] at hf; cases hf; exact ⟨rfl, fun h => by rw [hb] at h; cases h; rfl⟩
        | some b0 =>
          rw [hp] at hf
          simp only at hf
          cases hbb : h.bufs b0 <;> rw [hbb] at hf <;> cases hf
          refine ⟨rfl, fun h => ?_⟩
          simp only [Heap.setBuf, update_apply] at h
          split_ifs at h
          rw [hb] at h; cases h; rfl
      split_ifs at hb' with hbn
      · rw [hbn, h0b.1, hinv.fresh_buf _ le_rfl] at hb; cases hb
      · exact h0b.2 hb'
  · have h1 := updateAll_bufs _ _ _ hs
    rw [h1] at hb'
    simp only [Heap.setObj] at hb'
    rw [hb] at hb'; cases hb'; rfl

/-- an operation does not touch the data pointer of an object it does not rebind -/
theorem step_data {o : Order} {lazy : Bool} {h h' : Heap n} {op : Op n} (hinv : Inv o lazy h)
    (hs : step o lazy h op = .ok h') {z : ℕ}
    (hz : match op with
      | .construct a => z ≠ a
      | .copy a _ => z ≠ a
      | .assign a _ => z ≠ a
      | .resize _ _ _ _ => True
      | .destroy a => z ≠ a) : (h'.objs z).map Obj.data = (h.objs z).map Obj.data := by
  cases op with
  | construct a =>
    cases ha : h.objs a with
    | some _ => simp [step, ha] at hs
    | none =>
      simp only [step, ha] at hs
      cases hs
      simp only [Heap.setObj, Heap.setRec]
      rw [update_of_ne hz]
  | copy a b =>
    cases ha : h.objs a with
    | some _ => simp [step, ha] at hs
    | none =>
      cases hb : h.objs b with
      | none => simp [step, ha, hb] at hs
      | some ob =>
        obtain ⟨rec, hr, _⟩ := hinv.obj_rec b ob hb
        simp only [step, ha, hb, hr] at hs
        cases hs
        simp only [Heap.setObj, Heap.setRec]
        rw [update_of_ne hz]
  | assign a b =>
    cases ha : h.objs a with
    | none => simp [step, ha] at hs
    | some oa =>
      cases hb : h.objs b with
      | none => simp [step, ha, hb] at hs
      | some ob =>
        obtain ⟨rec, hr, _⟩ := hinv.obj_rec b ob hb
        simp only [step, ha, hb, hr] at hs
        by_cases hd : oa.data = ob.data
        · rw [if_pos hd] at hs; cases hs
          simp only [Heap.setObj, Heap.setRec]
          rw [update_of_ne hz]
        · rw [if_neg hd] at hs
          rw [release_objs hs]
          simp only [Heap.setObj, Heap.setRec]
          rw [update_of_ne hz]
  | resize a r shrink slack =>
    cases ha : h.objs a with
    | none => simp [step, ha] at hs
    | some oa =>
      obtain ⟨h'', e1, e2, e3, e4, e5⟩ := resize_inv hinv ha r shrink slack
      rw [e1] at hs; cases hs
      cases hz : h.objs z with
      | none => rw [e5 z hz]
      | some oz =>
        by_cases hd : oz.data = oa.data
        · obtain ⟨oy, f1, f2, _⟩ := e3 z oz hz hd
          rw [f1]; simp [f2, hd]
        · rw [e4 z oz hz hd]
  | destroy a =>
    cases ha : h.objs a with
    | none => simp [step, ha] at hs
    | some oa =>
      obtain ⟨rec, hr, _⟩ := hinv.obj_rec a oa ha
      simp only [step, ha, hr] at hs
      rw [release_objs hs]
      simp only [Heap.setObj, Heap.setRec]
      rw [update_of_ne hz]

end Schnek.Lemma.Alloc
