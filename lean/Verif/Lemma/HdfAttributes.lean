import Verif.Spec.HdfAttributes
import Mathlib.Data.List.Induction
import Mathlib.Algebra.Order.Group.Nat

namespace Schnek.Lemma.HdfAttributes

open Schnek.Hdf Schnek.Spec

variable {V Ty : Type}

theorem run_snoc (h : List (AttrCall V Ty)) (c : AttrCall V Ty) :
    AttrWorld.run (h ++ [c]) = (AttrWorld.run h).bind fun w => w.call c := by
  simp [AttrWorld.run, List.foldlM_append]

theorem run_prefix {h h' : List (AttrCall V Ty)} {w : AttrWorld V Ty} (hw : AttrWorld.run (h ++ h') = some w) :
    ∃ w', AttrWorld.run h = some w' ∧ h'.foldlM AttrWorld.call w' = some w := by
  rw [AttrWorld.run, List.foldlM_append] at hw
  exact Option.bind_eq_some_iff.mp hw

/-! ### the variables -/

theorem hasValue_snoc (h : List (AttrCall V Ty)) (c : AttrCall V Ty) (a : ℕ) (v : V) :
    HasValue (h ++ [c]) a v ↔ c = .store a v ∨ (HasValue h a v ∧ c ≠ .destroy a ∧ ∀ v', c ≠ .store a v') := by
  constructor
  · rintro ⟨b, l, e, h1, h2⟩
    rcases List.eq_nil_or_concat l with rfl | ⟨l', d, rfl⟩
    · left
      have := List.append_inj_right' e rfl
      simpa using this
    · right
      have e' : h ++ [c] = (b ++ .store a v :: l') ++ [d] := by rw [e]; simp
      have hcd : c = d := by simpa using List.append_inj_right' e' rfl
      have hh : h = b ++ .store a v :: l' := List.append_inj_left' e' rfl
      subst hcd
      refine ⟨⟨b, l', hh, fun hm => h1 (by simp [hm]), fun v' hm => h2 v' (by simp [hm])⟩, ?_, ?_⟩
      · rintro rfl; exact h1 (by simp)
      · rintro v' rfl; exact h2 v' (by simp)
  · rintro (rfl | ⟨⟨b, l, rfl, h1, h2⟩, n1, n2⟩)
    · exact ⟨h, [], rfl, by simp, by simp⟩
    · refine ⟨b, l ++ [c], by simp, ?_, fun v' => ?_⟩
      · simpa [h1] using fun e => n1 e.symm
      · simpa [h2 v'] using fun e => n2 v' e.symm

theorem mem_spec (h : List (AttrCall V Ty)) : ∀ (w : AttrWorld V Ty), AttrWorld.run h = some w → ∀ a v, w.mem a = some v ↔ HasValue h a v := by
  induction h using List.reverseRecOn with
  | nil =>
    intro w hw a v
    cases hw
    constructor
    · intro e; cases e
    · rintro ⟨b, l, e, _⟩
      simp at e
  | append_singleton h c ih =>
    intro w hw a v
    rw [run_snoc] at hw
    obtain ⟨w', hw', hc⟩ := Option.bind_eq_some_iff.mp hw
    have i := ih w' hw' a v
    rw [hasValue_snoc, ← i]
    cases c with
    | store b x =>
      cases hc
      by_cases e : a = b
      · subst e; simp [Function.update_self]
      · simp [Function.update_of_ne e]
        constructor
        · intro hm; exact Or.inr ⟨hm, fun e' => absurd e'.symm e⟩
        · rintro (⟨e', _⟩ | ⟨hm, _⟩)
          · exact absurd e'.symm e
          · exact hm
    | destroy b =>
      cases hc
      by_cases e : a = b
      · subst e; simp [Function.update_self]
      · simp [Function.update_of_ne e]
        intro _ e'; exact e e'.symm
    | make => cases hc; simp
    | set o n t b k =>
      simp only [AttrWorld.call] at hc
      split at hc
      · cases hc; simp
      · cases hc
    | stream s => cases hc; simp
    | copy s s' =>
      simp only [AttrWorld.call, Option.map_eq_some_iff] at hc
      obtain ⟨o, _, rfl⟩ := hc; simp
    | setAttributes s o =>
      simp only [AttrWorld.call] at hc
      split at hc
      · cases hc; simp
      · cases hc
    | write s =>
      simp only [AttrWorld.call, Option.bind_eq_some_iff, Option.map_eq_some_iff] at hc
      obtain ⟨o, _, l, _, r, _, rfl⟩ := hc; simp

/-! ### the objects -/

theorem setLast_snoc (h : List (AttrCall V Ty)) (c : AttrCall V Ty) (o : ℕ) (n : String) (t : Ty) (a k : ℕ) :
    SetLast (h ++ [c]) o n t a k ↔ c = .set o n t a k ∨ (SetLast h o n t a k ∧ ∀ t' a' k', c ≠ .set o n t' a' k') := by
  constructor
  · rintro ⟨b, l, e, h2⟩
    rcases List.eq_nil_or_concat l with rfl | ⟨l', d, rfl⟩
    · left
      have := List.append_inj_right' e rfl
      simpa using this
    · right
      have e' : h ++ [c] = (b ++ .set o n t a k :: l') ++ [d] := by rw [e]; simp
      have hcd : c = d := by simpa using List.append_inj_right' e' rfl
      have hh : h = b ++ .set o n t a k :: l' := List.append_inj_left' e' rfl
      subst hcd
      refine ⟨⟨b, l', hh, fun t' a' k' hm => h2 t' a' k' (by simp [hm])⟩, ?_⟩
      rintro t' a' k' rfl; exact h2 t' a' k' (by simp)
  · rintro (rfl | ⟨⟨b, l, rfl, h2⟩, n2⟩)
    · exact ⟨h, [], rfl, by simp⟩
    · refine ⟨b, l ++ [c], by simp, fun t' a' k' => ?_⟩
      simpa [h2 t' a' k'] using fun e => n2 t' a' k' e.symm

theorem set_names (l : Attributes Ty) (n : String) (t : Ty) (a k : ℕ) (hl : (l.map Prod.fst).Nodup) :
    ((l.set n t a k).map Prod.fst).Nodup := by
  rw [Attributes.set, List.map_append, List.nodup_append]
  refine ⟨?_, by simp, ?_⟩
  · exact List.Nodup.sublist (List.Sublist.map _ List.filter_sublist) hl
  · intro x hx y hy
    simp at hx hy
    rw [hy]; exact hx.2

theorem set_mem (l : Attributes Ty) (n : String) (t : Ty) (a k : ℕ) (p : String × AttrInfo Ty) :
    p ∈ l.set n t a k ↔ p = (n, ⟨t, k, a⟩) ∨ (p ∈ l ∧ p.1 ≠ n) := by
  simp [Attributes.set]; tauto

/-- there is always a first object such that no `set` concerns the ones after it -/
theorem objects_spec (h : List (AttrCall V Ty)) : ∀ (w : AttrWorld V Ty), AttrWorld.run h = some w →
    (∀ o n t a k, SetLast h o n t a k → o < w.objects.length) ∧
    ∀ o l, w.objects[o]? = some l → (l.map Prod.fst).Nodup ∧ ∀ n t a k, (n, ⟨t, k, a⟩) ∈ l ↔ SetLast h o n t a k := by
  induction h using List.reverseRecOn with
  | nil =>
    intro w hw
    cases hw
    refine ⟨?_, ?_⟩
    · rintro o n t a k ⟨b, l, e, _⟩; simp at e
    · intro o l e; simp [AttrWorld.start] at e
  | append_singleton h c ih =>
    intro w hw
    rw [run_snoc] at hw
    obtain ⟨w', hw', hc⟩ := Option.bind_eq_some_iff.mp hw
    obtain ⟨i1, i2⟩ := ih w' hw'
    simp only [setLast_snoc]
    -- calls that do not concern the objects
    have same : w.objects = w'.objects → (∀ o n t a k, c ≠ .set o n t a k) →
        (∀ o n t a k, (c = .set o n t a k ∨ (SetLast h o n t a k ∧ ∀ t' a' k', c ≠ .set o n t' a' k')) → o < w.objects.length) ∧
        ∀ o l, w.objects[o]? = some l → (l.map Prod.fst).Nodup ∧ ∀ n t a k, (n, ⟨t, k, a⟩) ∈ l ↔
          (c = .set o n t a k ∨ (SetLast h o n t a k ∧ ∀ t' a' k', c ≠ .set o n t' a' k')) := by
      intro e hn
      rw [e]
      refine ⟨fun o n t a k hs => ?_, fun o l hl => ?_⟩
      · rcases hs with hs | ⟨hs, _⟩
        · exact absurd hs (hn _ _ _ _ _)
        · exact i1 _ _ _ _ _ hs
      · obtain ⟨j1, j2⟩ := i2 o l hl
        refine ⟨j1, fun n t a k => ?_⟩
        rw [j2]
        constructor
        · intro hs; exact Or.inr ⟨hs, fun _ _ _ => hn _ _ _ _ _⟩
        · rintro (hs | ⟨hs, _⟩)
          · exact absurd hs (hn _ _ _ _ _)
          · exact hs
    -- a new object
    have more : w.objects = w'.objects ++ [[]] → (∀ o n t a k, c ≠ .set o n t a k) →
        (∀ o n t a k, (c = .set o n t a k ∨ (SetLast h o n t a k ∧ ∀ t' a' k', c ≠ .set o n t' a' k')) → o < w.objects.length) ∧
        ∀ o l, w.objects[o]? = some l → (l.map Prod.fst).Nodup ∧ ∀ n t a k, (n, ⟨t, k, a⟩) ∈ l ↔
          (c = .set o n t a k ∨ (SetLast h o n t a k ∧ ∀ t' a' k', c ≠ .set o n t' a' k')) := by
      intro e hn
      rw [e]
      refine ⟨fun o n t a k hs => ?_, fun o l hl => ?_⟩
      · rcases hs with hs | ⟨hs, _⟩
        · exact absurd hs (hn _ _ _ _ _)
        · have := i1 _ _ _ _ _ hs
          simp; omega
      · rcases Nat.lt_or_ge o w'.objects.length with ho | ho
        · rw [List.getElem?_append_left ho] at hl
          obtain ⟨j1, j2⟩ := i2 o l hl
          refine ⟨j1, fun n t a k => ?_⟩
          rw [j2]
          constructor
          · intro hs; exact Or.inr ⟨hs, fun _ _ _ => hn _ _ _ _ _⟩
          · rintro (hs | ⟨hs, _⟩)
            · exact absurd hs (hn _ _ _ _ _)
            · exact hs
        · rw [List.getElem?_append_right ho] at hl
          have hl' : l = [] := by
            have := List.getElem?_eq_some_iff.mp hl
            obtain ⟨hlt, e2⟩ := this
            simp at e2
            exact e2
          subst hl'
          refine ⟨by simp, fun n t a k => ?_⟩
          constructor
          · intro hm; cases hm
          · rintro (hs | ⟨hs, _⟩)
            · exact absurd hs (hn _ _ _ _ _)
            · have := i1 _ _ _ _ _ hs
              omega
    cases c with
    | store b x => cases hc; exact same rfl (by simp)
    | destroy b => cases hc; exact same rfl (by simp)
    | make => cases hc; exact more rfl (by simp)
    | set o n t b k =>
      simp only [AttrWorld.call] at hc
      split at hc
      · rename_i ho
        cases hc
        refine ⟨fun o' n' t' a' k' hs => ?_, fun o' l hl => ?_⟩
        · rcases hs with hs | ⟨hs, _⟩
          · cases hs; simpa using ho
          · simpa using i1 _ _ _ _ _ hs
        · rw [List.getElem?_modify] at hl
          obtain ⟨l', hl', e⟩ := Option.map_eq_some_iff.mp hl
          obtain ⟨j1, j2⟩ := i2 o' l' hl'
          by_cases eo : o = o'
          · subst eo
            rw [if_pos rfl] at e
            subst e
            refine ⟨set_names _ _ _ _ _ j1, fun n' t' a' k' => ?_⟩
            rw [set_mem, j2]
            simp only [Prod.mk.injEq, AttrInfo.mk.injEq, AttrCall.set.injEq, true_and]
            constructor
            · rintro (⟨rfl, rfl, rfl, rfl⟩ | ⟨hs, hne⟩)
              · left; simp
              · exact Or.inr ⟨hs, fun t'' a'' k'' e => by rw [AttrCall.set.injEq] at e; exact hne e.2.1.symm⟩
            · rintro (⟨rfl, rfl, rfl, rfl⟩ | ⟨hs, hne⟩)
              · left; simp
              · refine Or.inr ⟨hs, fun e => hne t b k ?_⟩
                rw [e]
          · rw [if_neg eo] at e
            cases e
            refine ⟨j1, fun n' t' a' k' => ?_⟩
            refine (j2 n' t' a' k').trans ?_
            constructor
            · intro hs
              exact Or.inr ⟨hs, fun t'' a'' k'' e => by rw [AttrCall.set.injEq] at e; exact eo e.1⟩
            · rintro (hs | ⟨hs, _⟩)
              · rw [AttrCall.set.injEq] at hs
                exact absurd hs.1 eo
              · exact hs
      · cases hc
    | stream s => cases hc; exact more rfl (by simp)
    | copy s s' =>
      simp only [AttrWorld.call, Option.map_eq_some_iff] at hc
      obtain ⟨o, _, rfl⟩ := hc; exact same rfl (by simp)
    | setAttributes s o =>
      simp only [AttrWorld.call] at hc
      split at hc
      · cases hc; exact same rfl (by simp)
      · cases hc
    | write s =>
      simp only [AttrWorld.call, Option.bind_eq_some_iff, Option.map_eq_some_iff] at hc
      obtain ⟨o, _, l, _, r, _, rfl⟩ := hc; exact same rfl (by simp)

/-! ### the streams -/

theorem call_streams {w w' : AttrWorld V Ty} {c : AttrCall V Ty} (hc : w.call c = some w') (s : ℕ) (h1 : c ≠ .stream s)
    (h2 : ∀ s', c ≠ .copy s s') (h3 : ∀ o, c ≠ .setAttributes s o) : w'.streams s = w.streams s := by
  cases c with
  | store b x => cases hc; rfl
  | destroy b => cases hc; rfl
  | make => cases hc; rfl
  | set o n t b k =>
    simp only [AttrWorld.call] at hc
    split at hc
    · cases hc; rfl
    · cases hc
  | stream s' =>
    cases hc
    show Function.update _ _ _ s = _
    rw [Function.update_of_ne]
    rintro rfl; exact h1 rfl
  | copy s1 s2 =>
    simp only [AttrWorld.call, Option.map_eq_some_iff] at hc
    obtain ⟨o, _, rfl⟩ := hc
    show Function.update _ _ _ s = _
    rw [Function.update_of_ne]
    rintro rfl; exact h2 _ rfl
  | setAttributes s1 o =>
    simp only [AttrWorld.call] at hc
    split at hc
    · cases hc
      show Function.update _ _ _ s = _
      rw [Function.update_of_ne]
      rintro rfl; exact h3 _ rfl
    · cases hc
  | write s1 =>
    simp only [AttrWorld.call, Option.bind_eq_some_iff, Option.map_eq_some_iff] at hc
    obtain ⟨o, _, l, _, r, _, rfl⟩ := hc; rfl

theorem calls_streams (s : ℕ) : ∀ (l : List (AttrCall V Ty)) (w w' : AttrWorld V Ty), l.foldlM AttrWorld.call w = some w' →
    Undisturbed s l → w'.streams s = w.streams s := by
  intro l
  induction l with
  | nil => intro w w' h _; cases h; rfl
  | cons c l ih =>
    rintro w w' h ⟨u1, u2, u3⟩
    rw [List.foldlM_cons] at h
    obtain ⟨w1, hc, h⟩ := Option.bind_eq_some_iff.mp h
    simp only [List.mem_cons, not_or] at u1 u2 u3
    rw [ih w1 w' h ⟨u1.2, fun s' => (u2 s').2, fun o => (u3 o).2⟩]
    exact call_streams hc s (fun e => u1.1 e.symm) (fun s' e => (u2 s').1 e.symm) (fun o e => (u3 o).1 e.symm)

theorem call_length {w w' : AttrWorld V Ty} {c : AttrCall V Ty} (hc : w.call c = some w') : w.objects.length ≤ w'.objects.length := by
  cases c with
  | store b x => cases hc; exact le_rfl
  | destroy b => cases hc; exact le_rfl
  | make => cases hc; simp
  | set o n t b k =>
    simp only [AttrWorld.call] at hc
    split at hc
    · cases hc; simp
    · cases hc
  | stream s' => cases hc; simp
  | copy s1 s2 =>
    simp only [AttrWorld.call, Option.map_eq_some_iff] at hc
    obtain ⟨o, _, rfl⟩ := hc
    exact le_rfl
  | setAttributes s1 o =>
    simp only [AttrWorld.call] at hc
    split at hc
    · cases hc; exact le_rfl
    · cases hc
  | write s1 =>
    simp only [AttrWorld.call, Option.bind_eq_some_iff, Option.map_eq_some_iff] at hc
    obtain ⟨o, _, l, _, r, _, rfl⟩ := hc; exact le_rfl

theorem calls_length : ∀ (l : List (AttrCall V Ty)) (w w' : AttrWorld V Ty), l.foldlM AttrWorld.call w = some w' →
    w.objects.length ≤ w'.objects.length := by
  intro l
  induction l with
  | nil => intro w w' h; cases h; exact le_rfl
  | cons c l ih =>
    intro w w' h
    rw [List.foldlM_cons] at h
    obtain ⟨w1, hc, h⟩ := Option.bind_eq_some_iff.mp h
    exact (call_length hc).trans (ih w1 w' h)

theorem refers_spec {h : List (AttrCall V Ty)} {s o : ℕ} (hr : UsesAttributes h s o) :
    ∀ w, AttrWorld.run h = some w → w.streams s = some o ∧ o < w.objects.length := by
  induction hr with
  | @given before later s o u =>
    intro w hw
    obtain ⟨w1, _, h1⟩ := run_prefix hw
    rw [List.foldlM_cons] at h1
    obtain ⟨w2, hc, h2⟩ := Option.bind_eq_some_iff.mp h1
    have hl := calls_length later w2 w h2
    rw [calls_streams s later w2 w h2 u]
    simp only [AttrWorld.call] at hc
    split at hc
    · rename_i ho
      cases hc
      exact ⟨Function.update_self .., lt_of_lt_of_le ho.2 hl⟩
    · cases hc
  | @copied before later s s' o _ u ih =>
    intro w hw
    obtain ⟨w1, hb, h1⟩ := run_prefix hw
    obtain ⟨i1, i2⟩ := ih w1 hb
    rw [List.foldlM_cons] at h1
    obtain ⟨w2, hc, h2⟩ := Option.bind_eq_some_iff.mp h1
    have hl := calls_length later w2 w h2
    rw [calls_streams s later w2 w h2 u]
    simp only [AttrWorld.call, Option.map_eq_some_iff] at hc
    obtain ⟨o', ho', rfl⟩ := hc
    rw [i1] at ho'
    cases ho'
    exact ⟨Function.update_self .., lt_of_lt_of_le i2 hl⟩

/-! ### writing -/

theorem mapM_eq_some {α β : Type} (f : α → Option β) : ∀ (l : List α) (r : List β), l.mapM f = some r ↔
    r.length = l.length ∧ ∀ i (hi : i < l.length), f l[i] = r[i]? := by
  intro l
  induction l with
  | nil => intro r; simp [eq_comm]
  | cons a l ih =>
    intro r
    rw [List.mapM_cons]
    constructor
    · intro h
      obtain ⟨b, hb, h⟩ := Option.bind_eq_some_iff.mp h
      obtain ⟨r', hr', e⟩ := Option.bind_eq_some_iff.mp h
      cases e
      obtain ⟨e1, e2⟩ := (ih r').mp hr'
      refine ⟨by simp [e1], fun i hi => ?_⟩
      cases i with
      | zero => simpa using hb
      | succ i => simpa using e2 i (by simpa using hi)
    · rintro ⟨e1, e2⟩
      cases r with
      | nil => simp at e1
      | cons b r =>
        have h0 := e2 0 (by simp)
        simp at h0
        rw [h0]
        have := (ih r).mpr ⟨by simpa using e1, fun i hi => by
          have := e2 (i + 1) (by simpa using hi)
          rwa [List.getElem_cons_succ, List.getElem?_cons_succ] at this⟩
        rw [this]; rfl

theorem read_spec (mem : ℕ → Option V) (info : AttrInfo Ty) (vs : List V) :
    info.read mem = some vs ↔ vs.length = info.dims ∧ ∀ i, i < info.dims → ∃ v, vs[i]? = some v ∧ mem (info.buffer + i) = some v := by
  rw [AttrInfo.read, mapM_eq_some]
  simp only [List.length_range, List.getElem_range]
  refine and_congr_right fun e => forall₂_congr fun i hi => ?_
  have : i < vs.length := by omega
  rw [List.getElem?_eq_getElem this]
  constructor
  · intro h; exact ⟨_, rfl, h⟩
  · rintro ⟨v, h1, h2⟩; rw [h2]; exact h1.symm

theorem write_spec (mem : ℕ → Option V) (l : Attributes Ty) (r : List (WrittenAttr V Ty)) (h : l.write mem = some r) :
    r.map Prod.fst = l.map Prod.fst ∧ ∀ n t vs, (n, t, vs) ∈ r ↔ ∃ a k, (n, ⟨t, k, a⟩) ∈ l ∧ (⟨t, k, a⟩ : AttrInfo Ty).read mem = some vs := by
  induction l generalizing r with
  | nil => cases h; simp
  | cons p l ih =>
    rw [Attributes.write, List.mapM_cons] at h
    obtain ⟨x, hx, h⟩ := Option.bind_eq_some_iff.mp h
    obtain ⟨r', hr', e⟩ := Option.bind_eq_some_iff.mp h
    cases e
    obtain ⟨vs, hvs, rfl⟩ := Option.map_eq_some_iff.mp hx
    obtain ⟨i1, i2⟩ := ih r' hr'
    obtain ⟨n0, t0, k0, a0⟩ := p
    refine ⟨by simp [i1], fun n t vs' => ?_⟩
    rw [List.mem_cons, i2]
    constructor
    · rintro (e | ⟨a, k, h1, h2⟩)
      · cases e
        exact ⟨a0, k0, by simp, hvs⟩
      · exact ⟨a, k, by simp [h1], h2⟩
    · rintro ⟨a, k, h1, h2⟩
      rcases List.mem_cons.mp h1 with e | h1
      · cases e
        left
        rw [hvs] at h2
        cases h2
        rfl
      · exact Or.inr ⟨a, k, h1, h2⟩

theorem write_isSome (mem : ℕ → Option V) (l : Attributes Ty) (h : ∀ p ∈ l, (p.2.read mem).isSome) : (l.write mem).isSome := by
  induction l with
  | nil => rfl
  | cons p l ih =>
    obtain ⟨vs, hvs⟩ := Option.isSome_iff_exists.mp (h p (by simp))
    obtain ⟨r, hr⟩ := Option.isSome_iff_exists.mp (ih fun q hq => h q (by simp [hq]))
    rw [Attributes.write] at hr
    rw [Attributes.write, List.mapM_cons, hvs, hr]
    rfl

theorem read_isSome (mem : ℕ → Option V) (info : AttrInfo Ty) (h : ∀ i, i < info.dims → (mem (info.buffer + i)).isSome) :
    (info.read mem).isSome := by
  have : ∀ l : List ℕ, (∀ i ∈ l, (mem (info.buffer + i)).isSome) → (l.mapM fun i => mem (info.buffer + i)).isSome := by
    intro l
    induction l with
    | nil => intro _; rfl
    | cons i l ih =>
      intro hl
      obtain ⟨v, hv⟩ := Option.isSome_iff_exists.mp (hl i (by simp))
      obtain ⟨r, hr⟩ := Option.isSome_iff_exists.mp (ih fun j hj => hl j (by simp [hj]))
      rw [List.mapM_cons, hv, hr]
      rfl
  exact this _ fun i hi => h i (List.mem_range.mp hi)

end Schnek.Lemma.HdfAttributes
