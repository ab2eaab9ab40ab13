import Mathlib.Logic.Relation
import Verif.Lemma.Range
import Verif.Spec.Iteration

/-!
# Lemmas about function objects and parallel iteration
-/

namespace Schnek.Lemma.Iteration

open Schnek Schnek.Spec Schnek.Lemma.Range Schnek.Range Function

variable {n : ℕ} {σ W : Type}

theorem intList_cons {x hi : ℤ} (h : x ≤ hi) : intList x hi = x :: intList (x + 1) hi := by
  unfold intList
  rw [show (hi + 1 - x).toNat = (hi + 1 - (x + 1)).toNat + 1 by omega, List.range_succ_eq_map]
  simp only [List.map_cons, List.map_map, Nat.cast_zero, add_zero]
  congr 1
  apply List.map_congr_left
  intro a _
  simp only [comp_apply, Nat.succ_eq_add_one, Nat.cast_add, Nat.cast_one]
  ring

theorem intList_nil {x hi : ℤ} (h : ¬ x ≤ hi) : intList x hi = [] := by
  unfold intList
  rw [show (hi + 1 - x).toNat = 0 by omega]
  rfl

theorem loop_spec {i : Fin n} {hi : ℤ} {body : Idx n × W → Idx n × W → Prop} (K : Fin n → Prop) (hK : ¬ K i) (g : ℤ → W → W)
    (pos : Idx n)
    (hb : ∀ p w, (∀ j, K j → p j = pos j) → ∃ p', body (p, w) (p', g (p i) w) ∧ p' i = p i ∧ ∀ j, K j → p' j = pos j) :
    ∀ (k : ℕ) (p : Idx n) (w : W), (hi + 1 - p i).toNat = k → (∀ j, K j → p j = pos j) →
      ∃ p', Loop i hi body (p, w) (p', (intList (p i) hi).foldl (fun w x => g x w) w) ∧ ∀ j, K j → p' j = pos j
  | 0, p, w, hk, hp => by
    rw [intList_nil (by omega)]
    exact ⟨p, .done (by simp only; omega), hp⟩
  | k + 1, p, w, hk, hp => by
    obtain ⟨p', h1, h2, h3⟩ := hb p w hp
    have hj : ∀ j, K j → update p' i (p' i + 1) j = pos j := fun j hj => by
      rw [update_of_ne fun e => hK (by rwa [e] at hj)]
      exact h3 j hj
    have hk' : (hi + 1 - update p' i (p' i + 1) i).toNat = k := by rw [update_self, h2]; omega
    obtain ⟨p'', h4, h5⟩ := loop_spec K hK g pos hb k (update p' i (p' i + 1)) (g (p i) w) hk' hj
    refine ⟨p'', .step (by simp only; omega) h1 ?_, h5⟩
    rw [intList_cons (by omega)]
    rw [update_self, h2] at h4
    simp only [List.foldl_cons]
    rw [h2]
    exact h4

theorem loop_unique {i : Fin n} {hi : ℤ} {body : Idx n × W → Idx n × W → Prop} (hb : ∀ s t t', body s t → body s t' → t = t')
    {s t : Idx n × W} (h : Loop i hi body s t) : ∀ {t'}, Loop i hi body s t' → t = t' := by
  induction h with
  | done h =>
    intro t' h'
    cases h' with
    | done => rfl
    | step h1 => exact absurd h1 h
  | step h1 h2 _ ih =>
    intro t' h'
    cases h' with
    | done h => exact absurd h1 h
    | step _ h3 h4 =>
      cases hb _ _ _ h2 h3
      exact ih h4

theorem runC_unique (r : Range n) (f : FunctionObject n σ W) (func : σ) :
    ∀ dim h s t t', RunC r f dim h func s t → RunC r f dim h func s t' → t = t'
  | 0, _, _, _, _, h1, h2 => h1.trans h2.symm
  | dim + 1, _, _, _, _, h1, h2 => loop_unique (fun s t t' => runC_unique r f func dim _ s t t') h1 h2

theorem runF_unique (r : Range n) (f : FunctionObject n σ W) (func : σ) :
    ∀ dim h s t t', RunF r f dim h func s t → RunF r f dim h func s t' → t = t'
  | 0, _, _, _, _, h1, h2 => h1.trans h2.symm
  | dim + 1, _, _, _, _, h1, h2 => loop_unique (fun s t t' => runF_unique r f func dim _ s t t') h1 h2

theorem foldl_flatMap {α β γ : Type} (l : List α) (e : α → List β) (f : γ → β → γ) (w : γ) :
    (l.flatMap e).foldl f w = l.foldl (fun w x => (e x).foldl f w) w := by
  induction l generalizing w with
  | nil => rfl
  | cons a l ih => simp only [List.flatMap_cons, List.foldl_append, List.foldl_cons, ih]

/-- the function does not change the position -/
def Keeps (f : FunctionObject n σ W) : Prop := ∀ s p w, (f s p w).2.1 = p

theorem runC_spec (r : Range n) (f : FunctionObject n σ W) (hf : Keeps f) (func : σ) :
    ∀ (dim : ℕ) (h : dim ≤ n) (p : Idx n) (w : W),
      ∃ p', RunC r f dim h func (p, w) (p', (enumC r dim h p).foldl (fun w p => (f func p w).2.2) w) ∧
        ∀ i : Fin n, i.1 < n - dim → p' i = p i
  | 0, _, p, w => ⟨p, Prod.ext (hf func p w).symm rfl, fun _ _ => rfl⟩
  | dim + 1, h, p, w => by
    have ih := runC_spec r f hf func dim (Nat.le_of_succ_le h)
    let i : Fin n := ⟨n - (dim + 1), by omega⟩
    obtain ⟨p', h1, h2⟩ := loop_spec (body := RunC r f dim (Nat.le_of_succ_le h) func) (i := i) (hi := r.hi i)
      (fun j => j.1 < n - (dim + 1)) (fun hc => absurd hc (lt_irrefl _))
      (fun x w => (enumC r dim (Nat.le_of_succ_le h) (update p i x)).foldl (fun w p => (f func p w).2.2) w) p
      (fun q w hq => by
        obtain ⟨q', h1, h2⟩ := ih q w
        refine ⟨q', ?_, h2 i (by show n - (dim + 1) < n - dim; omega), fun j hj => (h2 j (by omega)).trans (hq j hj)⟩
        rw [enumC_congr r dim _ (update p i (q i)) q fun j hj => ?_]
        · exact h1
        · by_cases hc : j = i
          · rw [hc, update_self]
          · rw [update_of_ne hc]
            have : j.1 ≠ n - (dim + 1) := fun hcc => hc (Fin.ext hcc)
            exact (hq j (by omega)).symm)
      _ (update p i (r.lo i)) w rfl
      (fun j hj => update_of_ne (fun e => by rw [e] at hj; exact absurd hj (lt_irrefl _)) _ _)
    refine ⟨p', ?_, h2⟩
    rw [update_self] at h1
    show Loop i (r.hi i) (RunC r f dim _ func) (update p i (r.lo i), w) _
    rw [enumC, foldl_flatMap]
    exact h1

theorem runF_spec (r : Range n) (f : FunctionObject n σ W) (hf : Keeps f) (func : σ) :
    ∀ (dim : ℕ) (h : dim ≤ n) (p : Idx n) (w : W),
      ∃ p', RunF r f dim h func (p, w) (p', (enumF r dim h p).foldl (fun w p => (f func p w).2.2) w) ∧
        ∀ i : Fin n, dim ≤ i.1 → p' i = p i
  | 0, _, p, w => ⟨p, Prod.ext (hf func p w).symm rfl, fun _ _ => rfl⟩
  | dim + 1, h, p, w => by
    have ih := runF_spec r f hf func dim (Nat.le_of_succ_le h)
    let i : Fin n := ⟨dim, h⟩
    obtain ⟨p', h1, h2⟩ := loop_spec (body := RunF r f dim (Nat.le_of_succ_le h) func) (i := i) (hi := r.hi i)
      (fun j => dim + 1 ≤ j.1) (fun hc => absurd hc (by show ¬ dim + 1 ≤ dim; omega))
      (fun x w => (enumF r dim (Nat.le_of_succ_le h) (update p i x)).foldl (fun w p => (f func p w).2.2) w) p
      (fun q w hq => by
        obtain ⟨q', h1, h2⟩ := ih q w
        refine ⟨q', ?_, h2 i le_rfl, fun j hj => (h2 j (by omega)).trans (hq j hj)⟩
        rw [enumF_congr r dim _ (update p i (q i)) q fun j hj => ?_]
        · exact h1
        · by_cases hc : j = i
          · rw [hc, update_self]
          · rw [update_of_ne hc]
            have : j.1 ≠ dim := fun hcc => hc (Fin.ext hcc)
            exact (hq j (by omega)).symm)
      _ (update p i (r.lo i)) w rfl
      (fun j hj => update_of_ne (fun e => by rw [e] at hj; exact absurd hj (by show ¬ dim + 1 ≤ dim; omega)) _ _)
    refine ⟨p', ?_, h2⟩
    rw [update_self] at h1
    show Loop i (r.hi i) (RunF r f dim _ func) (update p i (r.lo i), w) _
    rw [enumF, foldl_flatMap]
    exact h1

/-! ## parallel iteration -/

variable {L V : Type} [DecidableEq L]

omit [DecidableEq L] in
theorem touches_of_writes {l : L} {t : Thread L V} (h : Writes l t) : Touches l t := by
  induction h with
  | here => exact .hereW
  | write _ ih => exact .write ih
  | read v _ ih => exact .read v ih

theorem run_of_not_writes {l : L} : ∀ (t : Thread L V) (m : L → V), ¬ Writes l t → t.run m l = m l
  | .done, _, _ => rfl
  | .read l' next, m, h => run_of_not_writes (next (m l')) m fun hc => h (.read _ hc)
  | .write l' v next, m, h => by
    show next.run (update m l' v) l = m l
    rw [run_of_not_writes next _ fun hc => h (.write hc), update_of_ne]
    rintro rfl
    exact h .here

/-- what a call does to the locations it uses depends on these only -/
theorem run_congr : ∀ (t : Thread L V) (S : L → Prop) (m m' : L → V), (∀ l, Touches l t → S l) → (∀ l, S l → m l = m' l) →
    ∀ l, S l → t.run m l = t.run m' l
  | .done, _, _, _, _, h, l, hl => h l hl
  | .read l' next, S, m, m', hS, h, l, hl => by
    show (next (m l')).run m l = (next (m' l')).run m' l
    rw [← h l' (hS l' .hereR)]
    exact run_congr (next (m l')) S m m' (fun k hk => hS k (.read _ hk)) h l hl
  | .write l' v next, S, m, m', hS, h, l, hl => by
    refine run_congr next S _ _ (fun k hk => hS k (.write hk)) (fun k hk => ?_) l hl
    by_cases hc : k = l'
    · rw [hc, update_self, update_self]
    · rw [update_of_ne hc, update_of_ne hc, h k hk]

/-- during a parallel iteration without races: what is left to be done leads to what each call does alone -/
structure Inv (func : Idx n → Thread L V) (m₀ : L → V) (s : ParallelState n L V) : Prop where
  uses : ∀ p l, Touches l (s.left p) → Touches l (func p)
  writes : ∀ p l, Writes l (s.left p) → Writes l (func p)
  same : ∀ p l, Touches l (func p) → (s.left p).run s.mem l = (func p).run m₀ l
  rest : ∀ l, (∀ p, ¬ Writes l (func p)) → s.mem l = m₀ l

theorem inv_step {func : Idx n → Thread L V} {m₀ : L → V} (hr : ∀ p q l, p ≠ q → Writes l (func p) → ¬ Touches l (func q))
    {s s' : ParallelState n L V} (hs : Inv func m₀ s) (h : ParallelStep s s') : Inv func m₀ s' := by
  cases h with
  | @read p l next hl =>
    refine ⟨fun q k hk => ?_, fun q k hk => ?_, fun q k hk => ?_, hs.rest⟩
    · by_cases hc : q = p
      · subst hc
        simp only [update_self] at hk
        exact hs.uses q k (hl ▸ .read _ hk)
      · simp only [update_of_ne hc] at hk
        exact hs.uses q k hk
    · by_cases hc : q = p
      · subst hc
        simp only [update_self] at hk
        exact hs.writes q k (hl ▸ .read _ hk)
      · simp only [update_of_ne hc] at hk
        exact hs.writes q k hk
    · by_cases hc : q = p
      · subst hc
        simp only [update_self]
        rw [← hs.same q k hk, hl]
        rfl
      · simp only [update_of_ne hc]
        exact hs.same q k hk
  | @write p l v next hl =>
    have hw : Writes l (func p) := hs.writes p l (hl ▸ .here)
    refine ⟨fun q k hk => ?_, fun q k hk => ?_, fun q k hk => ?_, fun k hk => ?_⟩
    · by_cases hc : q = p
      · subst hc
        simp only [update_self] at hk
        exact hs.uses q k (hl ▸ .write hk)
      · simp only [update_of_ne hc] at hk
        exact hs.uses q k hk
    · by_cases hc : q = p
      · subst hc
        simp only [update_self] at hk
        exact hs.writes q k (hl ▸ .write hk)
      · simp only [update_of_ne hc] at hk
        exact hs.writes q k hk
    · by_cases hc : q = p
      · subst hc
        simp only [update_self]
        rw [← hs.same q k hk, hl]
        rfl
      · simp only [update_of_ne hc]
        rw [← hs.same q k hk]
        refine run_congr _ (fun k => Touches k (func q)) _ _ (hs.uses q) (fun j hj => update_of_ne ?_ _ _) k hk
        rintro rfl
        exact hr p q j (Ne.symm hc) hw hj
    · simp only
      rw [update_of_ne, hs.rest k hk]
      rintro rfl
      exact hk p hw

theorem inv_steps {func : Idx n → Thread L V} {m₀ : L → V} (hr : ∀ p q l, p ≠ q → Writes l (func p) → ¬ Touches l (func q))
    {s s' : ParallelState n L V} (hs : Inv func m₀ s) (h : Relation.ReflTransGen ParallelStep s s') : Inv func m₀ s' := by
  induction h with
  | refl => exact hs
  | tail _ h ih => exact inv_step hr ih h

/-- the sequential execution of the calls in any order -/
theorem foldl_run {func : Idx n → Thread L V} {m₀ : L → V} (hr : ∀ p q l, p ≠ q → Writes l (func p) → ¬ Touches l (func q)) :
    ∀ (lst : List (Idx n)), lst.Nodup →
      (∀ p ∈ lst, ∀ l, Writes l (func p) → lst.foldl (fun m p => (func p).run m) m₀ l = (func p).run m₀ l) ∧
      ∀ l, (∀ p ∈ lst, ¬ Writes l (func p)) → lst.foldl (fun m p => (func p).run m) m₀ l = m₀ l := by
  intro lst
  induction lst using List.reverseRecOn with
  | nil => exact fun _ => ⟨by simp, fun _ _ => rfl⟩
  | append_singleton lst q ih =>
    intro hn
    rw [List.nodup_append] at hn
    obtain ⟨ih1, ih2⟩ := ih hn.1
    have hq : ∀ p ∈ lst, p ≠ q := fun p hp => hn.2.2 p hp q (by simp)
    refine ⟨fun p hp l hl => ?_, fun l hl => ?_⟩
    · rw [List.foldl_append, List.foldl_cons, List.foldl_nil]
      rw [List.mem_append, List.mem_singleton] at hp
      rcases hp with hp | rfl
      · rw [run_of_not_writes _ _ fun hc => hr p q l (hq p hp) hl (touches_of_writes hc)]
        exact ih1 p hp l hl
      · refine run_congr _ (fun k => Touches k (func p)) _ _ (fun _ h => h) (fun k hk => ?_) l (touches_of_writes hl)
        exact ih2 k fun p' hp' hw => hr p' p k (hq p' hp') hw hk
    · rw [List.foldl_append, List.foldl_cons, List.foldl_nil, run_of_not_writes _ _ (hl q (by simp))]
      exact ih2 l fun p hp => hl p (by simp [hp])

/-! ### every parallel iteration ends -/

/-- a later state of the same calls -/
inductive Thread.Sub : Thread L V → Thread L V → Prop
  | read {l next} (v) : Thread.Sub (next v) (.read l next)
  | write {l v next} : Thread.Sub next (.write l v next)

omit [DecidableEq L] in
theorem sub_wf : WellFounded (Thread.Sub (L := L) (V := V)) :=
  ⟨fun t => by
    induction t with
    | done => exact ⟨_, fun _ h => by cases h⟩
    | read l next ih => exact ⟨_, fun _ h => by cases h with | read v => exact ih v⟩
    | write l v next ih => exact ⟨_, fun _ h => by cases h with | write => exact ih⟩⟩

/-- one call goes on; the values read may be any -/
def LeftStep (a b : Idx n → Thread L V) : Prop := ∃ p t, Thread.Sub t (b p) ∧ a = update b p t

omit [DecidableEq L] in
theorem acc_update {q : Idx n} (t : Thread L V) : ∀ a : Idx n → Thread L V, Acc LeftStep a → a q = .done → Acc LeftStep (update a q t) := by
  induction t using sub_wf.induction with
  | _ t iht =>
    intro a ha
    induction ha with
    | intro a ha iha =>
      intro hq
      refine ⟨_, ?_⟩
      rintro _ ⟨p, x, hx, rfl⟩
      by_cases hc : p = q
      · subst hc
        rw [update_self] at hx
        rw [update_idem]
        exact iht x hx a ⟨a, ha⟩ hq
      · rw [update_of_ne hc] at hx
        rw [update_comm (Ne.symm hc)]
        exact iha _ ⟨p, x, hx, rfl⟩ (by rw [update_of_ne (Ne.symm hc)]; exact hq)

omit [DecidableEq L] in
theorem acc_left : ∀ (lst : List (Idx n)) (a : Idx n → Thread L V), (∀ p, p ∉ lst → a p = .done) → Acc LeftStep a
  | [], a, h => ⟨_, by
      rintro _ ⟨p, x, hx, rfl⟩
      rw [h p (by simp)] at hx
      cases hx⟩
  | q :: lst, a, h => by
    have e : a = update (update a q .done) q (a q) := by rw [update_idem, update_eq_self]
    rw [e]
    refine acc_update _ _ (acc_left lst _ fun p hp => ?_) (update_self ..)
    by_cases hc : p = q
    · rw [hc, update_self]
    · rw [update_of_ne hc]
      exact h p (by simp [hc, hp])

theorem acc_step {s : ParallelState n L V} (h : Acc LeftStep s.left) : Acc (fun b a : ParallelState n L V => ParallelStep a b) s := by
  have : Subrelation (fun b a : ParallelState n L V => ParallelStep a b) (InvImage LeftStep ParallelState.left) := by
    intro b a hab
    cases hab with
    | @read p l next hl => exact ⟨p, _, hl ▸ .read _, rfl⟩
    | @write p l v next hl => exact ⟨p, _, hl ▸ .write, rfl⟩
  exact this.accessible (InvImage.accessible _ h)

end Schnek.Lemma.Iteration
