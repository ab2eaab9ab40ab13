import Verif.Spec.Registry

/-!
# Lemmas about registries
-/

namespace Schnek.Lemma.Registry

open Schnek.Deck Schnek.Spec

variable {V : Type}

/-- the value of a name in a map -/
def entry (f : List (String × V)) (name : String) : Option V := (f.find? fun q => q.1 = name).map Prod.snd

/-- the value of a name in the map number `m` -/
def at_ (S : Shared V) (m : ℕ) (name : String) : Option V := S.maps[m]?.bind fun f => entry f name

theorem entry_set (f : List (String × V)) (name n : String) (v : V) :
    entry (f.filter (fun q => q.1 ≠ name) ++ [(name, v)]) n = if n = name then some v else entry f n := by
  induction f with
  | nil =>
    by_cases h : n = name
    · simp [entry, h]
    · simp [entry, h, Ne.symm h]
  | cons q f ih =>
    unfold entry at ih ⊢
    by_cases hq : q.1 = name
    · rw [List.filter_cons_of_neg (by simp [hq]), ih]
      by_cases h : n = name
      · simp [h]
      · have : ¬ q.1 = n := fun e => h (e.symm.trans hq)
        simp [h, this]
    · rw [List.filter_cons_of_pos (by simp [hq]), List.cons_append, List.find?_cons, List.find?_cons]
      by_cases hn : q.1 = n
      · have : ¬ n = name := fun e => hq (hn.trans e)
        simp [hn, this]
      · simp only [hn, decide_false]
        exact ih

theorem lookup_eq (S : Shared V) (h : ℕ) (name : String) : S.lookup h name = S.handles[h]?.bind fun m => at_ S m name := rfl

/-- the pointers point to maps, and registries are related exactly if they have the same map -/
structure Good (S : Shared V) (origins : List (Option ℕ)) : Prop where
  length : S.handles.length = origins.length
  valid : ∀ h m : ℕ, S.handles[h]? = some m → m < S.maps.length
  edge : ∀ h k : ℕ, origins[k]? = some (some h) → ∃ m, S.handles[h]? = some m ∧ S.handles[k]? = some m
  same : ∀ h k m : ℕ, S.handles[h]? = some m → S.handles[k]? = some m → Related origins h k

theorem good_empty : Good (.empty : Shared V) [] := ⟨rfl, by simp [Shared.empty], by simp, by simp [Shared.empty]⟩

theorem related_mono {o o' : List (Option ℕ)} {h k : ℕ} (hr : Related o h k) : Related (o ++ o') h k := by
  refine Relation.EqvGen.mono (fun a b hab => ?_) h k hr
  obtain ⟨hlt, -⟩ := List.getElem?_eq_some_iff.1 hab
  rw [List.getElem?_append_left hlt]; exact hab

theorem good_new {S : Shared V} {o : List (Option ℕ)} (hg : Good S o) : Good S.new (o ++ [none]) := by
  refine ⟨by simp [Shared.new, hg.length], ?_, ?_, ?_⟩
  · intro h m hm
    simp only [Shared.new, List.length_append, List.length_singleton] at hm ⊢
    rw [List.getElem?_append] at hm
    by_cases hh : h < S.handles.length
    · rw [if_pos hh] at hm
      have := hg.valid h m hm
      omega
    · rw [if_neg hh] at hm
      have := List.mem_of_getElem? hm
      simp at this
      omega
  · intro h k hk
    rw [List.getElem?_append] at hk
    by_cases hh : k < o.length
    · rw [if_pos hh] at hk
      obtain ⟨m, h1, h2⟩ := hg.edge h k hk
      refine ⟨m, ?_, ?_⟩
      · simp only [Shared.new]
        rw [List.getElem?_append_left (List.getElem?_eq_some_iff.1 h1).1]; exact h1
      · simp only [Shared.new]
        rw [List.getElem?_append_left (List.getElem?_eq_some_iff.1 h2).1]; exact h2
    · rw [if_neg hh] at hk
      have := List.mem_of_getElem? hk
      simp at this
  · intro h k m h1 h2
    simp only [Shared.new] at h1 h2
    rw [List.getElem?_append] at h1 h2
    by_cases hh : h < S.handles.length <;> by_cases hk : k < S.handles.length
    · rw [if_pos hh] at h1
      rw [if_pos hk] at h2
      exact related_mono (hg.same h k m h1 h2)
    · rw [if_pos hh] at h1
      rw [if_neg hk] at h2
      have a := hg.valid h m h1
      have := List.mem_of_getElem? h2
      simp at this
      omega
    · rw [if_pos hk] at h2
      rw [if_neg hh] at h1
      have a := hg.valid k m h2
      have := List.mem_of_getElem? h1
      simp at this
      omega
    · rw [if_neg hh] at h1
      rw [if_neg hk] at h2
      have a1 := (List.getElem?_eq_some_iff.1 h1).1
      have a2 := (List.getElem?_eq_some_iff.1 h2).1
      simp at a1 a2
      have : h = k := by omega
      subst this
      exact Relation.EqvGen.refl _

theorem good_copy {S S' : Shared V} {o : List (Option ℕ)} (hg : Good S o) {h0 : ℕ} (hc : S.copy h0 = some S') :
    Good S' (o ++ [some h0]) := by
  unfold Shared.copy at hc
  rw [Option.map_eq_some_iff] at hc
  obtain ⟨m0, hm0, rfl⟩ := hc
  have lt0 := (List.getElem?_eq_some_iff.1 hm0).1
  have hedge : ∀ h k : ℕ, (o ++ [some h0])[k]? = some (some h) →
      ∃ m, (S.handles ++ [m0])[h]? = some m ∧ (S.handles ++ [m0])[k]? = some m := by
    intro h k hk
    rw [List.getElem?_append] at hk
    by_cases hh : k < o.length
    · rw [if_pos hh] at hk
      obtain ⟨m, h1, h2⟩ := hg.edge h k hk
      refine ⟨m, ?_, ?_⟩
      · rw [List.getElem?_append_left (List.getElem?_eq_some_iff.1 h1).1]; exact h1
      · rw [List.getElem?_append_left (List.getElem?_eq_some_iff.1 h2).1]; exact h2
    · rw [if_neg hh] at hk
      have hlt := (List.getElem?_eq_some_iff.1 hk).1
      have hmem := List.mem_of_getElem? hk
      simp at hlt hmem
      have hk' : k = S.handles.length := by rw [hg.length]; omega
      subst hmem hk'
      refine ⟨m0, ?_, by simp⟩
      rw [List.getElem?_append_left lt0]; exact hm0
  have hrel : ∀ h : ℕ, (S.handles ++ [m0])[h]? = some m0 → Related (o ++ [some h0]) h0 h := by
    intro h h1
    rw [List.getElem?_append] at h1
    by_cases hh : h < S.handles.length
    · rw [if_pos hh] at h1
      exact related_mono (hg.same _ _ _ hm0 h1)
    · rw [if_neg hh] at h1
      have a1 := (List.getElem?_eq_some_iff.1 h1).1
      simp at a1
      apply Relation.EqvGen.rel
      have : h = o.length := by rw [← hg.length]; omega
      subst this
      simp
  refine ⟨by simp [hg.length], ?_, hedge, ?_⟩
  · intro h m hm
    rw [List.getElem?_append] at hm
    by_cases hh : h < S.handles.length
    · rw [if_pos hh] at hm
      exact hg.valid h m hm
    · rw [if_neg hh] at hm
      have := List.mem_of_getElem? hm
      simp at this
      subst this
      exact hg.valid _ _ hm0
  · intro h k m h1 h2
    by_cases hm : m = m0
    · subst hm
      exact (hrel h h1).symm.trans _ _ _ (hrel k h2)
    · have old : ∀ k : ℕ, (S.handles ++ [m0])[k]? = some m → S.handles[k]? = some m := by
        intro k h1
        rw [List.getElem?_append] at h1
        by_cases hh : k < S.handles.length
        · rw [if_pos hh] at h1; exact h1
        · rw [if_neg hh] at h1
          have := List.mem_of_getElem? h1
          simp at this
          exact absurd this hm
      exact related_mono (hg.same h k m (old h h1) (old k h2))

theorem good_set {S S' : Shared V} {o : List (Option ℕ)} (hg : Good S o) {h0 : ℕ} {name : String} {v : V}
    (hc : S.set h0 name v = some S') : Good S' o := by
  unfold Shared.set at hc
  rw [Option.map_eq_some_iff] at hc
  obtain ⟨m0, hm0, rfl⟩ := hc
  exact ⟨hg.length, fun h m hm => by simpa using hg.valid h m hm, hg.edge, hg.same⟩

theorem related_iff {S : Shared V} {o : List (Option ℕ)} (hg : Good S o) {h m : ℕ} (hm : S.handles[h]? = some m) (k : ℕ) :
    Related o h k ↔ S.handles[k]? = some m := by
  constructor
  · intro hr
    have key : ∀ a b, Related o a b → S.handles[a]? = S.handles[b]? := by
      intro a b hab
      induction hab with
      | rel a b hab =>
        obtain ⟨m, h1, h2⟩ := hg.edge _ _ hab
        rw [h1, h2]
      | refl a => rfl
      | symm a b _ ih => exact ih.symm
      | trans a b c _ _ ih ih' => exact ih.trans ih'
    rw [← key _ _ hr, hm]
  · exact fun hk => hg.same _ _ _ hm hk

theorem at_new (S : Shared V) (m : ℕ) (name : String) : at_ S.new m name = at_ S m name := by
  unfold at_ Shared.new
  rw [List.getElem?_append]
  by_cases h : m < S.maps.length
  · rw [if_pos h]
  · rw [if_neg h, List.getElem?_eq_none (Nat.le_of_not_lt h)]
    cases hx : ([[]] : List (List (String × V)))[m - S.maps.length]? with
    | none => rfl
    | some f =>
      have := List.mem_of_getElem? hx
      simp at this
      subst this
      rfl

theorem at_set {S S' : Shared V} {h0 m0 : ℕ} {name : String} {v : V} (hm0 : S.handles[h0]? = some m0) (hlt : m0 < S.maps.length)
    (hc : S.set h0 name v = some S') (m : ℕ) (n : String) :
    at_ S' m n = if m = m0 ∧ n = name then some v else at_ S m n := by
  unfold Shared.set at hc
  rw [hm0, Option.map_some, Option.some.injEq] at hc
  subst hc
  unfold at_
  simp only [List.getElem?_modify]
  by_cases hm : m = m0
  · subst hm
    rw [List.getElem?_eq_getElem hlt]
    simp only [if_true, Option.map_eq_map, Option.map_some, Option.bind_some, true_and]
    rw [entry_set]
  · simp [hm, Ne.symm hm]

theorem split_snoc {α : Type} {l before after : List α} {x y : α} (h : l ++ [y] = before ++ x :: after) :
    (after = [] ∧ before = l ∧ x = y) ∨ ∃ after', after = after' ++ [y] ∧ l = before ++ x :: after' := by
  rcases List.eq_nil_or_concat after with rfl | ⟨after', z, rfl⟩
  · left
    obtain ⟨h1, h2⟩ := List.append_inj' h rfl
    exact ⟨rfl, h1.symm, by simpa using h2.symm⟩
  · right
    have h' : l ++ [y] = (before ++ x :: after') ++ [z] := by rw [h]; simp
    obtain ⟨h1, h2⟩ := List.append_inj' h' rfl
    have : y = z := by simpa using h2
    subst this
    exact ⟨after', by simp, h1⟩

/-! ## functions -/

section

variable {F W : Type}

theorem runFuncs_snoc (ops : List (FuncOp F W)) (op : FuncOp F W) : runFuncs (ops ++ [op]) = (runFuncs ops).bind fun S => op.run S := by
  unfold runFuncs
  rw [List.foldlM_append]
  cases List.foldlM FuncOp.run Shared.empty ops <;> simp

theorem funcOrigins_snoc (ops : List (FuncOp F W)) (op : FuncOp F W) :
    funcOrigins (ops ++ [op]) = funcOrigins ops ++ funcOrigins [op] := List.filterMap_append

/-- what is in the maps -/
structure FuncInv (ops : List (FuncOp F W)) (S : Shared (Func F W)) : Prop where
  good : Good S (funcOrigins ops)
  used : ∀ k name f, FuncOp.register k name f ∈ ops → ∃ m, S.handles[k]? = some m
  entries : ∀ m name f, at_ S m name = some f ↔
    ∃ before k after, ops = before ++ .register k name f :: after ∧ S.handles[k]? = some m ∧
      ∀ k' g, FuncOp.register k' name g ∈ after → S.handles[k']? ≠ some m

theorem funcInv (ops : List (FuncOp F W)) : ∀ S, runFuncs ops = some S → FuncInv ops S := by
  induction ops using List.reverseRecOn with
  | nil =>
    intro S h
    have : S = .empty := by simpa [runFuncs] using h.symm
    subst this
    refine ⟨good_empty, by simp, ?_⟩
    intro m name f
    simp [at_, Shared.empty]
  | append_singleton ops op ih =>
    intro S' h
    rw [runFuncs_snoc, Option.bind_eq_some_iff] at h
    obtain ⟨S, hS, hop⟩ := h
    have I := ih S hS
    -- a call that makes a registry
    have make : ∀ (ms : List ℕ) (_ : S'.handles = S.handles ++ ms) (_ : ∀ m n, at_ S' m n = at_ S m n)
        (_ : ∀ k name f, op ≠ .register k name f) (_ : Good S' (funcOrigins (ops ++ [op]))), FuncInv (ops ++ [op]) S' := by
      intro ms hms hat hne hgood
      have keep : ∀ k m : ℕ, S.handles[k]? = some m → S'.handles[k]? = some m := by
        intro k m hk
        rw [hms, List.getElem?_append_left (List.getElem?_eq_some_iff.1 hk).1]; exact hk
      have back : ∀ k name f, FuncOp.register k name f ∈ ops → S'.handles[k]? = S.handles[k]? := by
        intro k name f hk
        obtain ⟨m, hm⟩ := I.used k name f hk
        rw [hm, keep k m hm]
      refine ⟨hgood, ?_, ?_⟩
      · intro k name f hk
        rcases List.mem_append.1 hk with hk | hk
        · obtain ⟨m, hm⟩ := I.used k name f hk
          exact ⟨m, keep k m hm⟩
        · exact absurd (List.mem_singleton.1 hk).symm (hne k name f)
      · intro m name f
        rw [hat, I.entries]
        constructor
        · rintro ⟨before, k, after, rfl, h2, h3⟩
          refine ⟨before, k, after ++ [op], by simp, keep k m h2, ?_⟩
          intro k' g hk'
          rcases List.mem_append.1 hk' with hk' | hk'
          · rw [back k' name g (by simp [hk'])]
            exact h3 k' g hk'
          · exact absurd (List.mem_singleton.1 hk').symm (hne _ _ _)
        · rintro ⟨before, k, after, h1, h2, h3⟩
          rcases split_snoc h1 with ⟨-, -, h⟩ | ⟨after', rfl, rfl⟩
          · exact absurd h.symm (hne _ _ _)
          · refine ⟨before, k, after', rfl, ?_, ?_⟩
            · rw [← back k name f (by simp)]; exact h2
            · intro k' g hk'
              rw [← back k' name g (by simp [hk'])]
              exact h3 k' g (by simp [hk'])
    cases op with
    | new =>
      have : S' = S.new := by simpa [FuncOp.run] using hop.symm
      subst this
      exact make [S.maps.length] rfl (at_new S) (by simp) (by rw [funcOrigins_snoc]; exact good_new I.good)
    | copy h0 =>
      have hgood := good_copy I.good hop
      have hop' := hop
      simp only [FuncOp.run, Shared.copy, Option.map_eq_some_iff] at hop'
      obtain ⟨m0, hm0, rfl⟩ := hop'
      exact make [m0] rfl (fun _ _ => rfl) (by simp) (by rw [funcOrigins_snoc]; exact hgood)
    | register h0 name0 f0 =>
      have hop1 : S.set h0 name0 f0 = some S' := hop
      have hgood := good_set I.good hop1
      have hop' := hop1
      simp only [Shared.set, Option.map_eq_some_iff] at hop'
      obtain ⟨m0, hm0, hS'⟩ := hop'
      have hat := at_set hm0 (I.good.valid _ _ hm0) hop1
      have hh : S'.handles = S.handles := by rw [← hS']
      refine ⟨by rw [funcOrigins_snoc]; simpa [funcOrigins] using hgood, ?_, ?_⟩
      · intro k name f hk
        rw [hh]
        rcases List.mem_append.1 hk with hk | hk
        · exact I.used k name f hk
        · have := List.mem_singleton.1 hk
          injection this with e1 e2 e3
          subst e1
          exact ⟨m0, hm0⟩
      · intro m name f
        rw [hat, hh]
        constructor
        · intro h
          by_cases hc : m = m0 ∧ name = name0
          · rw [if_pos hc] at h
            obtain ⟨rfl, rfl⟩ := hc
            have : f0 = f := by simpa using h
            subst this
            exact ⟨ops, h0, [], rfl, hm0, by simp⟩
          · rw [if_neg hc, I.entries] at h
            obtain ⟨before, k, after, rfl, h2, h3⟩ := h
            refine ⟨before, k, after ++ [.register h0 name0 f0], by simp, h2, ?_⟩
            intro k' g hk' he
            rcases List.mem_append.1 hk' with hk' | hk'
            · exact h3 k' g hk' he
            · have := List.mem_singleton.1 hk'
              injection this with e1 e2 e3
              subst e1 e2
              rw [hm0] at he
              exact hc ⟨(Option.some.inj he).symm, rfl⟩
        · rintro ⟨before, k, after, h1, h2, h3⟩
          rcases split_snoc h1 with ⟨-, -, h⟩ | ⟨after', rfl, rfl⟩
          · injection h with e1 e2 e3
            subst e1 e2 e3
            rw [hm0] at h2
            rw [if_pos ⟨(Option.some.inj h2).symm, rfl⟩]
          · have hc : ¬ (m = m0 ∧ name = name0) := by
              rintro ⟨rfl, rfl⟩
              exact h3 h0 f0 (by simp) hm0
            rw [if_neg hc, I.entries]
            exact ⟨before, k, after', rfl, h2, fun k' g hk' => h3 k' g (by simp [hk'])⟩

theorem lookup_iff {ops : List (FuncOp F W)} {S : Shared (Func F W)} (hS : runFuncs ops = some S) {h : ℕ}
    (hh : h < (funcOrigins ops).length) (name : String) (f : Func F W) :
    S.lookup h name = some f ↔ LastRegistered ops h name f := by
  have I := funcInv ops S hS
  have hlt : h < S.handles.length := by rw [I.good.length]; exact hh
  have hm := List.getElem?_eq_getElem hlt
  rw [lookup_eq, hm, Option.bind_some, I.entries]
  unfold LastRegistered
  simp only [related_iff I.good hm, ne_eq]

/-- registering a list of functions -/
theorem run_registerList (h m0 : ℕ) (l : List (String × Func F W)) : ∀ S : Shared (Func F W), S.handles[h]? = some m0 → m0 < S.maps.length →
    ∃ S', (registerList h l).foldlM FuncOp.run S = some S' ∧ S'.handles = S.handles ∧ m0 < S'.maps.length ∧
      ∀ m n, at_ S' m n = if m = m0 then (entry l.reverse n).or (at_ S m n) else at_ S m n := by
  induction l with
  | nil =>
    intro S h1 h2
    refine ⟨S, rfl, rfl, h2, ?_⟩
    intro m n
    simp [entry]
  | cons p l ih =>
    intro S h1 h2
    obtain ⟨S1, hS1⟩ : ∃ S1, S.set h p.1 p.2 = some S1 := by
      unfold Shared.set
      rw [h1]
      exact ⟨_, rfl⟩
    have hat := at_set h1 h2 hS1
    have hS1' := hS1
    unfold Shared.set at hS1'
    rw [h1, Option.map_some, Option.some.injEq] at hS1'
    have hh : S1.handles = S.handles := by rw [← hS1']
    have hlen : m0 < S1.maps.length := by rw [← hS1']; simpa using h2
    obtain ⟨S', a1, a2, a3, a4⟩ := ih S1 (by rw [hh]; exact h1) hlen
    refine ⟨S', ?_, a2.trans hh, a3, ?_⟩
    · show List.foldlM FuncOp.run S (FuncOp.register h p.1 p.2 :: registerList h l) = some S'
      rw [List.foldlM_cons]
      show (S.set h p.1 p.2).bind _ = _
      rw [hS1, Option.bind_some]
      exact a1
    · intro m n
      rw [a4, hat]
      by_cases hm : m = m0
      · rw [if_pos hm, if_pos hm]
        have e : entry (p :: l).reverse n = (entry l.reverse n).or (if n = p.1 then some p.2 else none) := by
          unfold entry
          rw [List.reverse_cons, List.find?_append]
          cases hf : List.find? (fun q : String × Func F W => decide (q.1 = n)) l.reverse with
          | some q => simp
          | none =>
            by_cases hn : p.1 = n
            · simp [hn]
            · simp [hn, Ne.symm hn]
        rw [e]
        cases entry l.reverse n with
        | some f => rfl
        | none =>
          by_cases hn : n = p.1
          · simp [hn, hm]
          · simp [hn]
      · rw [if_neg hm, if_neg hm, if_neg (fun c => hm c.1)]

theorem entry_mem {l : List (String × V)} (hl : (l.map Prod.fst).Nodup) {n : String} {v : V} (h : (n, v) ∈ l) :
    entry l.reverse n = some v := by
  have key : ∀ q ∈ l, q.1 = n → q = (n, v) := by
    intro q hq hqn
    exact List.inj_on_of_nodup_map hl hq h hqn
  unfold entry
  cases hf : List.find? (fun q : String × V => decide (q.1 = n)) l.reverse with
  | none =>
    rw [List.find?_eq_none] at hf
    exact absurd (by simp) (hf (n, v) (by simpa using h))
  | some q =>
    have h1 := List.find?_some hf
    have h2 := List.mem_of_find?_eq_some hf
    rw [key q (by simpa using h2) (by simpa using h1)]
    rfl

theorem entry_not_mem {l : List (String × V)} {n : String} (h : n ∉ l.map Prod.fst) : entry l.reverse n = none := by
  unfold entry
  rw [Option.map_eq_none_iff, List.find?_eq_none]
  intro q hq
  simp only [decide_eq_true_eq]
  rintro rfl
  exact h (List.mem_map_of_mem (by simpa using hq))

end

/-! ## block classes -/

section

variable {B : Type}

theorem runClasses_snoc (ops : List (ClassOp B)) (op : ClassOp B) : runClasses (ops ++ [op]) = (runClasses ops).bind fun C => C.run op := by
  unfold runClasses
  rw [List.foldlM_append]
  cases List.foldlM Classes.run Classes.empty ops <;> simp

theorem classOrigins_snoc (ops : List (ClassOp B)) (op : ClassOp B) :
    classOrigins (ops ++ [op]) = classOrigins ops ++ classOrigins [op] := List.filterMap_append

theorem references_append (a b : List (ClassOp B)) : references (a ++ b) = references a + references b := List.countP_append

/-- `RefersTo` for the map number `m` -/
def RefM (ops : List (ClassOp B)) (hs : List ℕ) (m : ℕ) (name : String) (r : ℕ) : Prop :=
  ∃ before k after, (ops = before ++ .registerBlock k name :: after ∨ ops = before ++ .get k name :: after) ∧
    references before = r ∧ hs[k]? = some m ∧ ∀ k', ClassOp.registerBlock k' name ∈ after → hs[k']? ≠ some m

theorem refM_lt {ops : List (ClassOp B)} {hs : List ℕ} {m : ℕ} {name : String} {r : ℕ} (h : RefM ops hs m name r) :
    r < references ops := by
  obtain ⟨before, k, after, h1, rfl, -⟩ := h
  rcases h1 with rfl | rfl
  · rw [references_append]
    have : 0 < references (ClassOp.registerBlock k name :: after) := by simp [references, List.countP_cons]
    omega
  · rw [references_append]
    have : 0 < references (ClassOp.get k name :: after) := by simp [references, List.countP_cons]
    omega

theorem refM_congr {ops : List (ClassOp B)} {hs hs' : List ℕ} (hc : ∀ k n, ClassOp.registerBlock k n ∈ ops ∨ ClassOp.get k n ∈ ops →
    hs'[k]? = hs[k]?) (m : ℕ) (name : String) (r : ℕ) : RefM ops hs' m name r ↔ RefM ops hs m name r := by
  unfold RefM
  constructor
  · rintro ⟨before, k, after, h1, h2, h3, h4⟩
    refine ⟨before, k, after, h1, h2, ?_, ?_⟩
    · rw [← hc k name (by rcases h1 with rfl | rfl <;> simp)]; exact h3
    · intro k' hk'
      rw [← hc k' name (by rcases h1 with rfl | rfl <;> simp [hk'])]; exact h4 k' hk'
  · rintro ⟨before, k, after, h1, h2, h3, h4⟩
    refine ⟨before, k, after, h1, h2, ?_, ?_⟩
    · rw [hc k name (by rcases h1 with rfl | rfl <;> simp)]; exact h3
    · intro k' hk'
      rw [hc k' name (by rcases h1 with rfl | rfl <;> simp [hk'])]; exact h4 k' hk'

theorem refM_other {ops : List (ClassOp B)} {op : ClassOp B} (h1 : ∀ k n, op ≠ .registerBlock k n) (h2 : ∀ k n, op ≠ .get k n)
    (hs : List ℕ) (m : ℕ) (name : String) (r : ℕ) : RefM (ops ++ [op]) hs m name r ↔ RefM ops hs m name r := by
  constructor
  · rintro ⟨before, k, after, e, e2, e3, e4⟩
    rcases e with e | e
    · rcases split_snoc e with ⟨-, -, h⟩ | ⟨after', rfl, rfl⟩
      · exact absurd h.symm (h1 _ _)
      · exact ⟨before, k, after', Or.inl rfl, e2, e3, fun k' hk' => e4 k' (by simp [hk'])⟩
    · rcases split_snoc e with ⟨-, -, h⟩ | ⟨after', rfl, rfl⟩
      · exact absurd h.symm (h2 _ _)
      · exact ⟨before, k, after', Or.inr rfl, e2, e3, fun k' hk' => e4 k' (by simp [hk'])⟩
  · rintro ⟨before, k, after, e, e2, e3, e4⟩
    refine ⟨before, k, after ++ [op], ?_, e2, e3, ?_⟩
    · rcases e with rfl | rfl
      · left; simp
      · right; simp
    · intro k' hk'
      rcases List.mem_append.1 hk' with hk' | hk'
      · exact e4 k' hk'
      · exact absurd (List.mem_singleton.1 hk').symm (h1 _ _)

theorem refM_get {ops : List (ClassOp B)} {hs : List ℕ} {k0 m0 : ℕ} {n0 : String} (hk0 : hs[k0]? = some m0)
    (m : ℕ) (name : String) (r : ℕ) :
    RefM (ops ++ [.get k0 n0]) hs m name r ↔ (m = m0 ∧ name = n0 ∧ r = references ops) ∨ RefM ops hs m name r := by
  constructor
  · rintro ⟨before, k, after, e, e2, e3, e4⟩
    rcases e with e | e
    · rcases split_snoc e with ⟨-, -, h⟩ | ⟨after', rfl, rfl⟩
      · cases h
      · exact Or.inr ⟨before, k, after', Or.inl rfl, e2, e3, fun k' hk' => e4 k' (by simp [hk'])⟩
    · rcases split_snoc e with ⟨-, rfl, h⟩ | ⟨after', rfl, rfl⟩
      · injection h with h1 h2
        subst h1 h2
        rw [hk0] at e3
        exact Or.inl ⟨(Option.some.inj e3).symm, rfl, e2.symm⟩
      · exact Or.inr ⟨before, k, after', Or.inr rfl, e2, e3, fun k' hk' => e4 k' (by simp [hk'])⟩
  · rintro (⟨rfl, rfl, rfl⟩ | ⟨before, k, after, e, e2, e3, e4⟩)
    · exact ⟨ops, k0, [], Or.inr rfl, rfl, hk0, by simp⟩
    · refine ⟨before, k, after ++ [.get k0 n0], ?_, e2, e3, ?_⟩
      · rcases e with rfl | rfl
        · left; simp
        · right; simp
      · intro k' hk'
        rcases List.mem_append.1 hk' with hk' | hk'
        · exact e4 k' hk'
        · cases (List.mem_singleton.1 hk')

theorem refM_register {ops : List (ClassOp B)} {hs : List ℕ} {k0 m0 : ℕ} {n0 : String} (hk0 : hs[k0]? = some m0)
    (m : ℕ) (name : String) (r : ℕ) :
    RefM (ops ++ [.registerBlock k0 n0]) hs m name r ↔
      (m = m0 ∧ name = n0 ∧ r = references ops) ∨ (¬ (m = m0 ∧ name = n0) ∧ RefM ops hs m name r) := by
  have no : ∀ after' k', (k' = k0 → name = n0 → m ≠ m0) → (∀ k', ClassOp.registerBlock k' name ∈ after' → hs[k']? ≠ some m) →
      ClassOp.registerBlock k' name ∈ after' ++ [(ClassOp.registerBlock k0 n0 : ClassOp B)] → hs[k']? ≠ some m := by
    intro after' k' h1 h2 hk' he
    rcases List.mem_append.1 hk' with hk' | hk'
    · exact h2 k' hk' he
    · have := List.mem_singleton.1 hk'
      injection this with a1 a2
      subst a1
      rw [hk0] at he
      exact h1 rfl a2 (Option.some.inj he).symm
  constructor
  · rintro ⟨before, k, after, e, e2, e3, e4⟩
    have hne : ∀ after', after = after' ++ [.registerBlock k0 n0] → ¬ (m = m0 ∧ name = n0) := by
      rintro after' rfl ⟨rfl, rfl⟩
      exact e4 k0 (by simp) hk0
    rcases e with e | e
    · rcases split_snoc e with ⟨-, rfl, h⟩ | ⟨after', rfl, rfl⟩
      · injection h with h1 h2
        subst h1 h2
        rw [hk0] at e3
        exact Or.inl ⟨(Option.some.inj e3).symm, rfl, e2.symm⟩
      · exact Or.inr ⟨hne _ rfl, before, k, after', Or.inl rfl, e2, e3, fun k' hk' => e4 k' (by simp [hk'])⟩
    · rcases split_snoc e with ⟨-, rfl, h⟩ | ⟨after', rfl, rfl⟩
      · cases h
      · exact Or.inr ⟨hne _ rfl, before, k, after', Or.inr rfl, e2, e3, fun k' hk' => e4 k' (by simp [hk'])⟩
  · rintro (⟨rfl, rfl, rfl⟩ | ⟨hne, before, k, after, e, e2, e3, e4⟩)
    · exact ⟨ops, k0, [], Or.inl rfl, rfl, hk0, by simp⟩
    · refine ⟨before, k, after ++ [.registerBlock k0 n0], ?_, e2, e3, ?_⟩
      · rcases e with rfl | rfl
        · left; simp
        · right; simp
      · intro k' hk'
        exact no after k' (fun _ h1 h2 => hne ⟨h2, h1⟩) e4 hk'

/-- what is in the maps and in the descriptors -/
structure ClassInv (ops : List (ClassOp B)) (C : Classes B) : Prop where
  good : Good C.shared (classOrigins ops)
  nrefs : C.refs.length = references ops
  usedH : ∀ k n, ClassOp.registerBlock k n ∈ ops ∨ ClassOp.get k n ∈ ops → ∃ m, C.shared.handles[k]? = some m
  usedC : ∀ r c, ClassOp.addChild r c ∈ ops → r < C.refs.length
  usedS : ∀ r b, ClassOp.setClass r b ∈ ops → r < C.refs.length
  inj : ∀ m n m' n' d, at_ C.shared m n = some d → at_ C.shared m' n' = some d → m = m' ∧ n = n'
  bound : ∀ m n d, at_ C.shared m n = some d → d < C.descriptors.length
  refBound : ∀ (r d : ℕ), C.refs[r]? = some d → d < C.descriptors.length
  refsOf : ∀ m n d, at_ C.shared m n = some d → ∀ r : ℕ, C.refs[r]? = some d ↔ RefM ops C.shared.handles m n r
  known : ∀ m n, (∃ d, at_ C.shared m n = some d) ↔ ∃ r, RefM ops C.shared.handles m n r
  children : ∀ (d : ℕ) D, C.descriptors[d]? = some D → ∀ c, c ∈ D.allowedChildren ↔ ∃ r : ℕ, C.refs[r]? = some d ∧ ClassOp.addChild r c ∈ ops
  factory : ∀ (d : ℕ) D, C.descriptors[d]? = some D → ∀ b, D.factory = some b ↔ ∃ before r after, ops = before ++ ClassOp.setClass r b :: after ∧
    C.refs[r]? = some d ∧ ∀ r' b', ClassOp.setClass r' b' ∈ after → C.refs[r']? ≠ some d

theorem inv_empty : ClassInv ([] : List (ClassOp B)) .empty := by
  have h0 : ∀ m n, at_ (Classes.empty : Classes B).shared m n = none := by
    intro m n
    simp [at_, Classes.empty, Shared.empty]
  refine ⟨good_empty, rfl, by simp, by simp, by simp, ?_, ?_, ?_, ?_, ?_, ?_, ?_⟩
  · intro m n m' n' d h; rw [h0] at h; cases h
  · intro m n d h; rw [h0] at h; cases h
  · simp [Classes.empty]
  · intro m n d h; rw [h0] at h; cases h
  · intro m n
    constructor
    · rintro ⟨d, h⟩; rw [h0] at h; cases h
    · rintro ⟨r, before, k, after, h, -⟩
      rcases h with h | h <;> simp at h
  · simp [Classes.empty]
  · simp [Classes.empty]

/-- calls that make a registry -/
theorem inv_make {ops : List (ClassOp B)} {op : ClassOp B} {C : Classes B} (I : ClassInv ops C) (S : Shared ℕ) (ms : List ℕ)
    (hms : S.handles = C.shared.handles ++ ms) (hat : ∀ m n, at_ S m n = at_ C.shared m n)
    (hop : op = .new ∨ ∃ h, op = .copy h) (hg : Good S (classOrigins (ops ++ [op]))) :
    ClassInv (ops ++ [op]) { C with shared := S } := by
  have keep : ∀ k m : ℕ, C.shared.handles[k]? = some m → S.handles[k]? = some m := by
    intro k m hk
    rw [hms, List.getElem?_append_left (List.getElem?_eq_some_iff.1 hk).1]; exact hk
  have back : ∀ k n, ClassOp.registerBlock k n ∈ ops ∨ ClassOp.get k n ∈ ops → S.handles[k]? = C.shared.handles[k]? := by
    intro k n h
    obtain ⟨m, hm⟩ := I.usedH k n h
    rw [hm, keep k m hm]
  have mem : ∀ x : ClassOp B, x ≠ .new → (∀ h, x ≠ .copy h) → (x ∈ ops ++ [op] ↔ x ∈ ops) := by
    intro x h1 h2
    rw [List.mem_append, List.mem_singleton]
    constructor
    · rintro (h | rfl)
      · exact h
      · rcases hop with rfl | ⟨h, rfl⟩
        · exact absurd rfl h1
        · exact absurd rfl (h2 h)
    · exact Or.inl
  have ref : ∀ m n r, RefM (ops ++ [op]) S.handles m n r ↔ RefM ops C.shared.handles m n r := by
    intro m n r
    rw [refM_other, refM_congr back]
    · rcases hop with rfl | ⟨h, rfl⟩ <;> simp
    · rcases hop with rfl | ⟨h, rfl⟩ <;> simp
  refine ⟨hg, ?_, ?_, ?_, ?_, ?_, ?_, I.refBound, ?_, ?_, ?_, ?_⟩
  · rw [references_append, ← I.nrefs]
    rcases hop with rfl | ⟨h, rfl⟩ <;> simp [references]
  · intro k n h
    rw [mem _ (by simp) (by simp), mem _ (by simp) (by simp)] at h
    obtain ⟨m, hm⟩ := I.usedH k n h
    exact ⟨m, keep k m hm⟩
  · intro r c h
    rw [mem _ (by simp) (by simp)] at h
    exact I.usedC r c h
  · intro r c h
    rw [mem _ (by simp) (by simp)] at h
    exact I.usedS r c h
  · intro m n m' n' d; dsimp only; rw [hat, hat]; exact I.inj m n m' n' d
  · intro m n d; dsimp only; rw [hat]; exact I.bound m n d
  · intro m n d; dsimp only; rw [hat]; intro h r; rw [ref]; exact I.refsOf m n d h r
  · intro m n; dsimp only; simp only [hat, ref]; exact I.known m n
  · intro d D hD c
    rw [I.children d D hD c]
    dsimp only
    simp only [mem (ClassOp.addChild _ c) (by simp) (by simp)]
  · intro d D hD b
    rw [I.factory d D hD b]
    constructor
    · rintro ⟨before, r, after, rfl, h2, h3⟩
      refine ⟨before, r, after ++ [op], by simp, h2, ?_⟩
      intro r' b' h
      rcases List.mem_append.1 h with h | h
      · exact h3 r' b' h
      · rcases hop with rfl | ⟨_, rfl⟩ <;> cases List.mem_singleton.1 h
    · rintro ⟨before, r, after, h1, h2, h3⟩
      rcases split_snoc h1 with ⟨-, -, h⟩ | ⟨after', rfl, rfl⟩
      · rcases hop with rfl | ⟨_, rfl⟩ <;> cases h
      · exact ⟨before, r, after', rfl, h2, fun r' b' h => h3 r' b' (by simp [h])⟩

/-- children and factories when a reference is returned, and perhaps a new descriptor made -/
theorem inv_descs {ops : List (ClassOp B)} {op : ClassOp B} {C : Classes B} (I : ClassInv ops C) (ds : List (Descriptor B)) (x : ℕ)
    (hds : ∀ D ∈ ds, D = ⟨[], none⟩) (h1 : ∀ r c, op ≠ .addChild r c) (h2 : ∀ r b, op ≠ .setClass r b) :
    (∀ (d : ℕ) D, (C.descriptors ++ ds)[d]? = some D → ∀ c, c ∈ D.allowedChildren ↔
      ∃ r : ℕ, (C.refs ++ [x])[r]? = some d ∧ ClassOp.addChild r c ∈ ops ++ [op]) ∧
    (∀ (d : ℕ) D, (C.descriptors ++ ds)[d]? = some D → ∀ b, D.factory = some b ↔ ∃ before r after,
      ops ++ [op] = before ++ ClassOp.setClass r b :: after ∧ (C.refs ++ [x])[r]? = some d ∧
      ∀ r' b', ClassOp.setClass r' b' ∈ after → (C.refs ++ [x])[r']? ≠ some d) := by
  have old : ∀ r, r < C.refs.length → (C.refs ++ [x])[r]? = C.refs[r]? := fun r h => List.getElem?_append_left h
  constructor
  · intro d D hD c
    have e : (∃ r : ℕ, (C.refs ++ [x])[r]? = some d ∧ ClassOp.addChild r c ∈ ops ++ [op]) ↔
        ∃ r : ℕ, C.refs[r]? = some d ∧ ClassOp.addChild r c ∈ ops := by
      constructor
      · rintro ⟨r, h3, h4⟩
        rcases List.mem_append.1 h4 with h4 | h4
        · rw [old r (I.usedC r c h4)] at h3
          exact ⟨r, h3, h4⟩
        · exact absurd (List.mem_singleton.1 h4).symm (h1 _ _)
      · rintro ⟨r, h3, h4⟩
        exact ⟨r, by rw [old r (I.usedC r c h4)]; exact h3, by simp [h4]⟩
    rw [e]
    by_cases hd : d < C.descriptors.length
    · rw [List.getElem?_append_left hd] at hD
      exact I.children d D hD c
    · rw [List.getElem?_append_right (Nat.le_of_not_lt hd)] at hD
      rw [hds D (List.mem_of_getElem? hD)]
      simp only [List.not_mem_nil, false_iff]
      rintro ⟨r, h3, -⟩
      exact hd (I.refBound r d h3)
  · intro d D hD b
    have e : (∃ before r after, ops ++ [op] = before ++ ClassOp.setClass r b :: after ∧ (C.refs ++ [x])[r]? = some d ∧
        ∀ r' b', ClassOp.setClass r' b' ∈ after → (C.refs ++ [x])[r']? ≠ some d) ↔
        ∃ before r after, ops = before ++ ClassOp.setClass r b :: after ∧ C.refs[r]? = some d ∧
        ∀ r' b', ClassOp.setClass r' b' ∈ after → C.refs[r']? ≠ some d := by
      constructor
      · rintro ⟨before, r, after, h3, h4, h5⟩
        rcases split_snoc h3 with ⟨-, -, h⟩ | ⟨after', rfl, e⟩
        · exact absurd h.symm (h2 _ _)
        · have hu := I.usedS r b (by simp [e])
          refine ⟨before, r, after', e, by rw [← old r hu]; exact h4, ?_⟩
          intro r' b' h
          rw [← old r' (I.usedS r' b' (by simp [e, h]))]
          exact h5 r' b' (by simp [h])
      · rintro ⟨before, r, after, e, h4, h5⟩
        have hu := I.usedS r b (by simp [e])
        refine ⟨before, r, after ++ [op], by simp [e], by rw [old r hu]; exact h4, ?_⟩
        intro r' b' h
        rcases List.mem_append.1 h with h | h
        · rw [old r' (I.usedS r' b' (by simp [e, h]))]
          exact h5 r' b' h
        · exact absurd (List.mem_singleton.1 h).symm (h2 _ _)
    rw [e]
    by_cases hd : d < C.descriptors.length
    · rw [List.getElem?_append_left hd] at hD
      exact I.factory d D hD b
    · rw [List.getElem?_append_right (Nat.le_of_not_lt hd)] at hD
      rw [hds D (List.mem_of_getElem? hD)]
      simp only [reduceCtorEq, false_iff]
      rintro ⟨before, r, after, -, h3, -⟩
      exact hd (I.refBound r d h3)

/-- `registerBlock`, or `get` for a class that is not known -/
theorem inv_register {ops : List (ClassOp B)} {op : ClassOp B} {C C' : Classes B} (I : ClassInv ops C) {k0 : ℕ} {n0 : String}
    (hop : op = .registerBlock k0 n0 ∨ op = .get k0 n0 ∧ C.shared.lookup k0 n0 = none) (hC : C.registerBlock k0 n0 = some C') :
    ClassInv (ops ++ [op]) C' := by
  unfold Classes.registerBlock at hC
  rw [Option.map_eq_some_iff] at hC
  obtain ⟨S, hS, rfl⟩ := hC
  have hg := good_set I.good hS
  have hS' := hS
  unfold Shared.set at hS'
  rw [Option.map_eq_some_iff] at hS'
  obtain ⟨m0, hm0, hS'⟩ := hS'
  have hh : S.handles = C.shared.handles := by rw [← hS']
  have hat := at_set hm0 (I.good.valid _ _ hm0) hS
  have hbody := inv_descs I (op := op) [⟨[], none⟩] C.descriptors.length (by simp)
    (by rcases hop with rfl | ⟨rfl, -⟩ <;> simp) (by rcases hop with rfl | ⟨rfl, -⟩ <;> simp)
  have ref : ∀ m n r, RefM (ops ++ [op]) S.handles m n r ↔
      (m = m0 ∧ n = n0 ∧ r = references ops) ∨ (¬ (m = m0 ∧ n = n0) ∧ RefM ops C.shared.handles m n r) := by
    intro m n r
    rw [hh]
    rcases hop with rfl | ⟨rfl, hnone⟩
    · exact refM_register hm0 m n r
    · rw [refM_get hm0]
      have : at_ C.shared m0 n0 = none := by rw [lookup_eq, hm0, Option.bind_some] at hnone; exact hnone
      constructor
      · rintro (h | h)
        · exact Or.inl h
        · refine Or.inr ⟨?_, h⟩
          rintro ⟨rfl, rfl⟩
          obtain ⟨d, hd⟩ := (I.known _ _).2 ⟨r, h⟩
          rw [this] at hd
          cases hd
      · rintro (h | h)
        · exact Or.inl h
        · exact Or.inr h.2
  refine ⟨?_, ?_, ?_, ?_, ?_, ?_, ?_, ?_, ?_, ?_, hbody.1, hbody.2⟩
  · rw [classOrigins_snoc]
    have : classOrigins [op] = [] := by rcases hop with rfl | ⟨rfl, -⟩ <;> rfl
    rw [this, List.append_nil]
    exact hg
  · rw [references_append, List.length_append, I.nrefs]
    rcases hop with rfl | ⟨rfl, -⟩ <;> rfl
  · intro k n h
    dsimp only
    rw [hh]
    have : (ClassOp.registerBlock k n ∈ ops ∨ ClassOp.get k n ∈ ops) ∨ k = k0 := by
      rcases h with h | h
      · rcases List.mem_append.1 h with h | h
        · exact Or.inl (Or.inl h)
        · right
          have := List.mem_singleton.1 h
          rcases hop with rfl | ⟨rfl, -⟩
          · injection this
          · cases this
      · rcases List.mem_append.1 h with h | h
        · exact Or.inl (Or.inr h)
        · right
          have := List.mem_singleton.1 h
          rcases hop with rfl | ⟨rfl, -⟩
          · cases this
          · injection this
    rcases this with h | rfl
    · exact I.usedH k n h
    · exact ⟨m0, hm0⟩
  · intro r c h
    rcases List.mem_append.1 h with h | h
    · have := I.usedC r c h
      simp only [List.length_append, List.length_singleton]; omega
    · rcases hop with rfl | ⟨rfl, -⟩ <;> cases List.mem_singleton.1 h
  · intro r c h
    rcases List.mem_append.1 h with h | h
    · have := I.usedS r c h
      simp only [List.length_append, List.length_singleton]; omega
    · rcases hop with rfl | ⟨rfl, -⟩ <;> cases List.mem_singleton.1 h
  · intro m n m' n' d
    dsimp only
    rw [hat, hat]
    by_cases a : m = m0 ∧ n = n0 <;> by_cases a' : m' = m0 ∧ n' = n0
    · intros; exact ⟨a.1.trans a'.1.symm, a.2.trans a'.2.symm⟩
    · rw [if_pos a, if_neg a']
      intro h1 h2
      have := I.bound _ _ _ h2
      rw [← Option.some.inj h1] at this
      omega
    · rw [if_pos a', if_neg a]
      intro h2 h1
      have := I.bound _ _ _ h2
      rw [← Option.some.inj h1] at this
      omega
    · rw [if_neg a, if_neg a']
      exact I.inj m n m' n' d
  · intro m n d
    dsimp only
    rw [hat, List.length_append, List.length_singleton]
    by_cases a : m = m0 ∧ n = n0
    · rw [if_pos a]
      intro h
      rw [← Option.some.inj h]
      omega
    · rw [if_neg a]
      intro h
      have := I.bound _ _ _ h
      omega
  · intro r d h
    dsimp only at h ⊢
    rw [List.length_append, List.length_singleton]
    rcases List.mem_append.1 (List.mem_of_getElem? h) with h | h
    · obtain ⟨r', hr'⟩ := List.mem_iff_getElem?.1 h
      have := I.refBound r' d hr'
      omega
    · rw [List.mem_singleton.1 h]; omega
  · intro m n d
    dsimp only
    rw [hat]
    intro h r
    rw [ref]
    by_cases a : m = m0 ∧ n = n0
    · rw [if_pos a] at h
      have hd := Option.some.inj h
      subst hd
      constructor
      · intro hr
        left
        refine ⟨a.1, a.2, ?_⟩
        by_cases hlt : r < C.refs.length
        · rw [List.getElem?_append_left hlt] at hr
          have := I.refBound _ _ hr
          omega
        · have := (List.getElem?_eq_some_iff.1 hr).1
          rw [List.length_append, List.length_singleton] at this
          rw [← I.nrefs]; omega
      · rintro (⟨-, -, rfl⟩ | ⟨hne, -⟩)
        · rw [← I.nrefs]; simp
        · exact absurd a hne
    · rw [if_neg a] at h
      have hb := I.bound _ _ _ h
      have e := I.refsOf m n d h r
      constructor
      · intro hr
        right
        refine ⟨a, ?_⟩
        rw [← e]
        by_cases hlt : r < C.refs.length
        · rw [List.getElem?_append_left hlt] at hr
          exact hr
        · rw [List.getElem?_append_right (Nat.le_of_not_lt hlt)] at hr
          have := List.mem_of_getElem? hr
          rw [List.mem_singleton] at this
          omega
      · rintro (⟨h1, h2, -⟩ | ⟨-, hr⟩)
        · exact absurd ⟨h1, h2⟩ a
        · rw [← e] at hr
          rw [List.getElem?_append_left (List.getElem?_eq_some_iff.1 hr).1]
          exact hr
  · intro m n
    dsimp only
    simp only [hat, ref]
    by_cases a : m = m0 ∧ n = n0
    · simp [a]
    · simp only [a, if_false, not_false_eq_true, true_and]
      rw [I.known]
      constructor
      · rintro ⟨r, h⟩; exact ⟨r, Or.inr h⟩
      · rintro ⟨r, h | h⟩
        · exact absurd ⟨h.1, h.2.1⟩ a
        · exact ⟨r, h⟩

/-- `get` for a class that is known -/
theorem inv_get {ops : List (ClassOp B)} {C : Classes B} (I : ClassInv ops C) {k0 : ℕ} {n0 : String} {d0 : ℕ}
    (hl : C.shared.lookup k0 n0 = some d0) : ClassInv (ops ++ [.get k0 n0]) { C with refs := C.refs ++ [d0] } := by
  rw [lookup_eq, Option.bind_eq_some_iff] at hl
  obtain ⟨m0, hm0, hd0⟩ := hl
  have hbody := inv_descs I (op := .get k0 n0) [] d0 (by simp) (by simp) (by simp)
  rw [List.append_nil] at hbody
  refine ⟨?_, ?_, ?_, ?_, ?_, I.inj, I.bound, ?_, ?_, ?_, hbody.1, hbody.2⟩
  · rw [classOrigins_snoc]
    simpa [classOrigins] using I.good
  · rw [references_append, List.length_append, I.nrefs]; rfl
  · intro k n h
    rcases h with h | h
    · rcases List.mem_append.1 h with h | h
      · exact I.usedH k n (Or.inl h)
      · cases List.mem_singleton.1 h
    · rcases List.mem_append.1 h with h | h
      · exact I.usedH k n (Or.inr h)
      · have := List.mem_singleton.1 h
        injection this with e1 e2
        subst e1
        exact ⟨m0, hm0⟩
  · intro r c h
    rcases List.mem_append.1 h with h | h
    · have := I.usedC r c h
      simp only [List.length_append, List.length_singleton]; omega
    · cases List.mem_singleton.1 h
  · intro r c h
    rcases List.mem_append.1 h with h | h
    · have := I.usedS r c h
      simp only [List.length_append, List.length_singleton]; omega
    · cases List.mem_singleton.1 h
  · intro r d h
    dsimp only at h ⊢
    rcases List.mem_append.1 (List.mem_of_getElem? h) with h | h
    · obtain ⟨r', hr'⟩ := List.mem_iff_getElem?.1 h
      exact I.refBound r' d hr'
    · rw [List.mem_singleton.1 h]; exact I.bound _ _ _ hd0
  · intro m n d h r
    dsimp only at h ⊢
    rw [refM_get hm0, ← I.refsOf m n d h r]
    by_cases hlt : r < C.refs.length
    · rw [List.getElem?_append_left hlt]
      constructor
      · exact Or.inr
      · rintro (⟨-, -, rfl⟩ | h)
        · rw [I.nrefs] at hlt; omega
        · exact h
    · rw [List.getElem?_append_right (Nat.le_of_not_lt hlt)]
      constructor
      · intro hr
        have hlt' := (List.getElem?_eq_some_iff.1 hr).1
        have := List.mem_of_getElem? hr
        rw [List.mem_singleton] at this
        subst this
        obtain ⟨rfl, rfl⟩ := I.inj _ _ _ _ _ h hd0
        left
        rw [List.length_singleton] at hlt'
        exact ⟨rfl, rfl, by rw [← I.nrefs]; omega⟩
      · rintro (⟨rfl, rfl, rfl⟩ | h)
        · rw [h] at hd0
          rw [Option.some.inj hd0, ← I.nrefs]
          simp
        · exact absurd (List.getElem?_eq_some_iff.1 h).1 hlt
  · intro m n
    dsimp only
    simp only [refM_get hm0]
    rw [I.known]
    constructor
    · rintro ⟨r, h⟩; exact ⟨r, Or.inr h⟩
    · rintro ⟨r, ⟨rfl, rfl, -⟩ | h⟩
      · exact (I.known _ _).1 ⟨d0, hd0⟩
      · exact ⟨r, h⟩

/-- `addChildren` and `setClass` -/
theorem inv_modify {ops : List (ClassOp B)} {op : ClassOp B} {C C' : Classes B} (I : ClassInv ops C) (r0 : ℕ)
    (hop : (∃ c, op = .addChild r0 c) ∨ ∃ b, op = .setClass r0 b) (hC : C.run op = some C') : ClassInv (ops ++ [op]) C' := by
  obtain ⟨f, hf, hdef⟩ : ∃ f, C.modifyRef r0 f = some C' ∧
      ((∃ c0, op = .addChild r0 c0 ∧ f = fun d => { d with allowedChildren := d.allowedChildren ++ [c0] }) ∨
        ∃ b0, op = .setClass r0 b0 ∧ f = fun d => { d with factory := some b0 }) := by
    rcases hop with ⟨c, rfl⟩ | ⟨b, rfl⟩
    · exact ⟨_, hC, Or.inl ⟨c, rfl, rfl⟩⟩
    · exact ⟨_, hC, Or.inr ⟨b, rfl, rfl⟩⟩
  unfold Classes.modifyRef at hf
  rw [Option.bind_eq_some_iff] at hf
  obtain ⟨d0, hd0, hf⟩ := hf
  by_cases ha : C.alive d0
  swap
  · rw [if_neg ha] at hf; cases hf
  rw [if_pos ha, Option.some.injEq] at hf
  subst hf
  have hlt0 := (List.getElem?_eq_some_iff.1 hd0).1
  have hne1 : ∀ k n, op ≠ .registerBlock k n := by rcases hop with ⟨_, rfl⟩ | ⟨_, rfl⟩ <;> simp
  have hne2 : ∀ k n, op ≠ .get k n := by rcases hop with ⟨_, rfl⟩ | ⟨_, rfl⟩ <;> simp
  refine ⟨?_, ?_, ?_, ?_, ?_, I.inj, ?_, ?_, ?_, ?_, ?_, ?_⟩
  · rw [classOrigins_snoc]
    have : classOrigins [op] = [] := by rcases hop with ⟨_, rfl⟩ | ⟨_, rfl⟩ <;> rfl
    rw [this, List.append_nil]
    exact I.good
  · rw [references_append, I.nrefs]
    rcases hop with ⟨_, rfl⟩ | ⟨_, rfl⟩ <;> simp [references]
  · intro k n h
    apply I.usedH k n
    rcases h with h | h
    · rcases List.mem_append.1 h with h | h
      · exact Or.inl h
      · exact absurd (List.mem_singleton.1 h).symm (hne1 _ _)
    · rcases List.mem_append.1 h with h | h
      · exact Or.inr h
      · exact absurd (List.mem_singleton.1 h).symm (hne2 _ _)
  · intro r c h
    rcases List.mem_append.1 h with h | h
    · exact I.usedC r c h
    · have := List.mem_singleton.1 h
      rcases hop with ⟨_, rfl⟩ | ⟨_, rfl⟩
      · injection this with e1 e2
        subst e1; exact hlt0
      · cases this
  · intro r c h
    rcases List.mem_append.1 h with h | h
    · exact I.usedS r c h
    · have := List.mem_singleton.1 h
      rcases hop with ⟨_, rfl⟩ | ⟨_, rfl⟩
      · cases this
      · injection this with e1 e2
        subst e1; exact hlt0
  · intro m n d h; dsimp only; rw [List.length_modify]; exact I.bound m n d h
  · intro r d h; dsimp only; rw [List.length_modify]; exact I.refBound r d h
  · intro m n d h r
    rw [refM_other hne1 hne2]
    exact I.refsOf m n d h r
  · intro m n
    simp only [refM_other hne1 hne2]
    exact I.known m n
  · intro d D hD c
    dsimp only at hD ⊢
    rw [List.getElem?_modify] at hD
    obtain ⟨D0, hD0, hD⟩ := Option.map_eq_some_iff.1 hD
    have e := I.children d D0 hD0 c
    rcases hdef with ⟨c0, rfl, rfl⟩ | ⟨b0, rfl, rfl⟩
    · have step : (∃ r : ℕ, C.refs[r]? = some d ∧ ClassOp.addChild r c ∈ ops ++ [(ClassOp.addChild r0 c0 : ClassOp B)]) ↔
          (∃ r : ℕ, C.refs[r]? = some d ∧ ClassOp.addChild r c ∈ ops) ∨ (d0 = d ∧ c = c0) := by
        constructor
        · rintro ⟨r, h1, h2⟩
          rcases List.mem_append.1 h2 with h2 | h2
          · exact Or.inl ⟨r, h1, h2⟩
          · have := List.mem_singleton.1 h2
            injection this with e1 e2
            subst e1
            rw [hd0] at h1
            exact Or.inr ⟨Option.some.inj h1, e2⟩
        · rintro (⟨r, h1, h2⟩ | ⟨rfl, rfl⟩)
          · exact ⟨r, h1, by simp [h2]⟩
          · exact ⟨r0, hd0, by simp⟩
      rw [step, ← e]
      by_cases hd : d0 = d
      · rw [if_pos hd] at hD
        subst hD
        simp [hd]
      · rw [if_neg hd] at hD
        subst hD
        simp [hd]
    · have step : (∃ r : ℕ, C.refs[r]? = some d ∧ ClassOp.addChild r c ∈ ops ++ [(ClassOp.setClass r0 b0 : ClassOp B)]) ↔
          (∃ r : ℕ, C.refs[r]? = some d ∧ ClassOp.addChild r c ∈ ops) := by simp
      rw [step, ← e]
      by_cases hd : d0 = d
      · rw [if_pos hd] at hD
        subst hD
        rfl
      · rw [if_neg hd] at hD
        subst hD
        rfl
  · intro d D hD b
    dsimp only at hD ⊢
    rw [List.getElem?_modify] at hD
    obtain ⟨D0, hD0, hD⟩ := Option.map_eq_some_iff.1 hD
    have e := I.factory d D0 hD0 b
    by_cases hs : ∃ b0, op = .setClass r0 b0 ∧ d0 = d
    · obtain ⟨b0, rfl, rfl⟩ := hs
      rcases hdef with ⟨c0, h, -⟩ | ⟨b1, h, rfl⟩
      · cases h
      injection h with h1 h2
      subst h2
      rw [if_pos rfl] at hD
      subst hD
      simp only [Option.some.injEq]
      constructor
      · rintro rfl
        exact ⟨ops, r0, [], rfl, hd0, by simp⟩
      · rintro ⟨before, r, after, h1, h2, h3⟩
        rcases split_snoc h1 with ⟨-, -, h⟩ | ⟨after', rfl, -⟩
        · injection h with h1 h2
          exact h2.symm
        · exact absurd hd0 (h3 r0 b0 (by simp))
    · have hD' : D.factory = D0.factory := by
        rcases hdef with ⟨c0, rfl, rfl⟩ | ⟨b1, rfl, rfl⟩
        · by_cases hd : d0 = d
          · rw [if_pos hd] at hD
            subst hD
            rfl
          · rw [if_neg hd] at hD
            subst hD
            rfl
        · have hd : ¬ d0 = d := fun hd => hs ⟨b1, rfl, hd⟩
          rw [if_neg hd] at hD
          subst hD
          rfl
      rw [hD', e]
      constructor
      · rintro ⟨before, r, after, rfl, h2, h3⟩
        refine ⟨before, r, after ++ [op], by simp, h2, ?_⟩
        intro r' b' h he
        rcases List.mem_append.1 h with h | h
        · exact h3 r' b' h he
        · have := List.mem_singleton.1 h
          subst this
          rcases hop with ⟨_, h⟩ | ⟨_, h⟩
          · cases h
          · injection h with h1 h2
            subst h1 h2
            rw [hd0] at he
            exact hs ⟨_, rfl, Option.some.inj he⟩
      · rintro ⟨before, r, after, h1, h2, h3⟩
        rcases split_snoc h1 with ⟨-, -, h⟩ | ⟨after', rfl, rfl⟩
        · subst h
          rcases hop with ⟨_, h⟩ | ⟨_, h⟩
          · cases h
          · injection h with h1 h2
            subst h1 h2
            rw [hd0] at h2
            exact absurd ⟨_, rfl, Option.some.inj h2⟩ hs
        · exact ⟨before, r, after', rfl, h2, fun r' b' h => h3 r' b' (by simp [h])⟩

theorem inv_step {ops : List (ClassOp B)} {op : ClassOp B} {C C' : Classes B} (I : ClassInv ops C) (hC : C.run op = some C') :
    ClassInv (ops ++ [op]) C' := by
  cases op with
  | new =>
    simp only [Classes.run, Option.some.injEq] at hC
    subst hC
    exact inv_make I _ [C.shared.maps.length] rfl (at_new _) (Or.inl rfl) (by rw [classOrigins_snoc]; exact good_new I.good)
  | copy h =>
    simp only [Classes.run, Option.map_eq_some_iff] at hC
    obtain ⟨S, hS, rfl⟩ := hC
    have hg := good_copy I.good hS
    unfold Shared.copy at hS
    rw [Option.map_eq_some_iff] at hS
    obtain ⟨m0, hm0, rfl⟩ := hS
    exact inv_make I _ [m0] rfl (fun _ _ => rfl) (Or.inr ⟨h, rfl⟩) (by rw [classOrigins_snoc]; exact hg)
  | registerBlock h name => exact inv_register I (Or.inl rfl) hC
  | get h name =>
    simp only [Classes.run, Classes.get] at hC
    cases hl : C.shared.lookup h name with
    | none =>
      rw [hl] at hC
      exact inv_register I (Or.inr ⟨rfl, hl⟩) hC
    | some d =>
      rw [hl] at hC
      simp only [Option.some.injEq] at hC
      subst hC
      exact inv_get I hl
  | addChild r c => exact inv_modify I r (Or.inl ⟨c, rfl⟩) hC
  | setClass r b => exact inv_modify I r (Or.inr ⟨b, rfl⟩) hC

theorem classInv (ops : List (ClassOp B)) : ∀ C, runClasses ops = some C → ClassInv ops C := by
  induction ops using List.reverseRecOn with
  | nil =>
    intro C h
    have : C = .empty := by simpa [runClasses] using h.symm
    subst this
    exact inv_empty
  | append_singleton ops op ih =>
    intro C' h
    rw [runClasses_snoc, Option.bind_eq_some_iff] at h
    obtain ⟨C, hC, hop⟩ := h
    exact inv_step (ih C hC) hop

theorem refersTo_iff {ops : List (ClassOp B)} {C : Classes B} (I : ClassInv ops C) {h m : ℕ} (hm : C.shared.handles[h]? = some m)
    (name : String) (r : ℕ) : RefersTo ops h name r ↔ RefM ops C.shared.handles m name r := by
  unfold RefersTo RefM
  simp only [related_iff I.good hm, ne_eq]

theorem alive_of_at {C : Classes B} {m : ℕ} {n : String} {d : ℕ} (h : at_ C.shared m n = some d) : C.alive d = true := by
  unfold at_ entry at h
  rw [Option.bind_eq_some_iff] at h
  obtain ⟨f, hf, h⟩ := h
  rw [Option.map_eq_some_iff] at h
  obtain ⟨q, hq, rfl⟩ := h
  unfold Classes.alive
  rw [List.any_eq_true]
  refine ⟨f, List.mem_of_getElem? hf, ?_⟩
  rw [List.any_eq_true]
  exact ⟨q, List.mem_of_find?_eq_some hq, by simp⟩

theorem registersOnce_prefix {ops : List (ClassOp B)} {op : ClassOp B} (h : RegistersOnce (ops ++ [op])) : RegistersOnce ops := by
  intro before x after e
  obtain ⟨h1, h2⟩ := h before x (after ++ [op]) (by simp [e])
  refine ⟨h1, fun k name hx k' hk' => h2 k name hx k' ?_⟩
  rw [classOrigins_snoc]
  exact related_mono hk'

theorem run_defined (ops : List (ClassOp B)) (hops : RegistersOnce ops) :
    ∃ C, runClasses ops = some C ∧ ∀ r d : ℕ, C.refs[r]? = some d → ∃ m n, at_ C.shared m n = some d := by
  induction ops using List.reverseRecOn with
  | nil => exact ⟨.empty, rfl, by simp [Classes.empty]⟩
  | append_singleton ops op ih =>
    obtain ⟨C, hC, hl⟩ := ih (registersOnce_prefix hops)
    have I := classInv ops C hC
    obtain ⟨hu, hr⟩ := hops ops op [] (by simp)
    rw [runClasses_snoc, hC, Option.bind_some]
    have hhandle : ∀ h, h < (classOrigins ops).length → ∃ m, C.shared.handles[h]? = some m := by
      intro h hh
      rw [← I.good.length] at hh
      exact ⟨_, List.getElem?_eq_getElem hh⟩
    have register : ∀ h name m0, C.shared.handles[h]? = some m0 → at_ C.shared m0 name = none →
        ∃ C', C.registerBlock h name = some C' ∧ ∀ r d : ℕ, C'.refs[r]? = some d → ∃ m n, at_ C'.shared m n = some d := by
      intro h name m0 hm0 hnone
      obtain ⟨S, hS⟩ : ∃ S, C.shared.set h name C.descriptors.length = some S := by
        unfold Shared.set
        rw [hm0]
        exact ⟨_, rfl⟩
      have hat := at_set hm0 (I.good.valid _ _ hm0) hS
      refine ⟨_, by unfold Classes.registerBlock; rw [hS]; rfl, ?_⟩
      intro r d hrd
      dsimp only at hrd ⊢
      rcases List.mem_append.1 (List.mem_of_getElem? hrd) with h1 | h1
      · obtain ⟨r', hr'⟩ := List.mem_iff_getElem?.1 h1
        obtain ⟨m, n, hmn⟩ := hl r' d hr'
        refine ⟨m, n, ?_⟩
        rw [hat]
        by_cases hc : m = m0 ∧ n = name
        · rw [hc.1, hc.2, hnone] at hmn
          cases hmn
        · rw [if_neg hc]; exact hmn
      · rw [List.mem_singleton.1 h1]
        exact ⟨m0, name, by rw [hat, if_pos ⟨rfl, rfl⟩]⟩
    have modify : ∀ r f, r < references ops → ∃ C', C.modifyRef r f = some C' ∧ ∀ r d : ℕ, C'.refs[r]? = some d →
        ∃ m n, at_ C'.shared m n = some d := by
      intro r f hr
      rw [← I.nrefs] at hr
      obtain ⟨m, n, hmn⟩ := hl r _ (List.getElem?_eq_getElem hr)
      refine ⟨_, by unfold Classes.modifyRef; rw [List.getElem?_eq_getElem hr, Option.bind_some, if_pos (alive_of_at hmn)], ?_⟩
      exact hl
    cases op with
    | new => exact ⟨_, rfl, fun r d h => by obtain ⟨m, n, hmn⟩ := hl r d h; exact ⟨m, n, by rw [at_new]; exact hmn⟩⟩
    | copy h =>
      obtain ⟨m, hm⟩ := hhandle h hu
      refine ⟨{ C with shared := ⟨C.shared.maps, C.shared.handles ++ [m]⟩ }, ?_, fun r d h => hl r d h⟩
      simp [Classes.run, Shared.copy, hm]
    | registerBlock h name =>
      obtain ⟨m0, hm0⟩ := hhandle h hu
      refine register h name m0 hm0 ?_
      cases hx : at_ C.shared m0 name with
      | none => rfl
      | some d =>
        obtain ⟨r, before, k, after, h1, -, h3, -⟩ := (I.known m0 name).1 ⟨d, hx⟩
        have hk := I.good.same h k m0 hm0 h3
        have : classOrigins (ops ++ [.registerBlock h name]) = classOrigins ops := by
          rw [classOrigins_snoc]; simp [classOrigins]
        obtain ⟨a1, a2⟩ := hr h name rfl k (by rw [this]; exact hk)
        rcases h1 with rfl | rfl
        · exact absurd (by simp) a1
        · exact absurd (by simp) a2
    | get h name =>
      obtain ⟨m0, hm0⟩ := hhandle h hu
      simp only [Classes.run, Classes.get]
      cases hx : C.shared.lookup h name with
      | none =>
        refine register h name m0 hm0 ?_
        rw [lookup_eq, hm0] at hx
        exact hx
      | some d0 =>
        refine ⟨_, rfl, ?_⟩
        intro r d hrd
        dsimp only at hrd ⊢
        rcases List.mem_append.1 (List.mem_of_getElem? hrd) with h1 | h1
        · obtain ⟨r', hr'⟩ := List.mem_iff_getElem?.1 h1
          exact hl r' d hr'
        · rw [List.mem_singleton.1 h1]
          rw [lookup_eq, hm0] at hx
          exact ⟨m0, name, hx⟩
    | addChild r c => exact modify r _ hu
    | setClass r b => exact modify r _ hu

end

end Schnek.Lemma.Registry
