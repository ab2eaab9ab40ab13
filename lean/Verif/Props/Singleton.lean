import Verif.Model.Singleton
import Mathlib.Tactic.Common
import Mathlib.Tactic.IntervalCases

/-!
# Objects shared by the whole program (C143)
-/

namespace Schnek.Props

section

open Singleton

/-- no thread is in the function -/
def Quiet (m : Singleton.Memory) : Prop := ∀ t, m.pc t = .idle

/-- One thread at a time: whenever a thread takes a turn, no other thread is in the function. -/
def OneAtATime (m : Singleton.Memory) (turns : List ℕ) : Prop :=
  ∀ before t after, turns = before ++ t :: after → ∀ m', run m before = some m' → ∀ u, u ≠ t → m'.pc u = .idle

/-- objects that exist, and no null pointer -/
private structure Inv (m : Singleton.Memory) : Prop where
  ptr : ∀ a, m.ptr = some a → a < m.made
  assign : ∀ t a, m.pc t = .assign a → a < m.made
  load : ∀ t, m.pc t = .load → m.ptr ≠ none
  results : ∀ r ∈ m.results, r.2 < m.made
  returned : m.results ≠ [] → m.ptr ≠ none

private theorem Inv.step {m : Singleton.Memory} (h : Inv m) (t : ℕ) : ∃ m', Singleton.step m t = some m' ∧ Inv m' := by
  unfold Singleton.step
  rcases ht : m.pc t with _ | _ | a | _
  · refine ⟨_, rfl, ⟨h.ptr, ?_, ?_, h.results, h.returned⟩⟩
    · intro u a hu
      by_cases hut : u = t
      · subst hut
        simp only [Function.update_self] at hu
        split at hu <;> cases hu
      · simp only [Function.update_of_ne hut] at hu
        exact h.assign u a hu
    · intro u hu
      by_cases hut : u = t
      · subst hut
        simp only [Function.update_self] at hu
        split at hu
        · cases hu
        · assumption
      · simp only [Function.update_of_ne hut] at hu
        exact h.load u hu
  · refine ⟨_, rfl, ⟨fun a ha => Nat.lt_succ_of_lt (h.ptr a ha), ?_, ?_, fun r hr => Nat.lt_succ_of_lt (h.results r hr), h.returned⟩⟩
    · intro u a hu
      by_cases hut : u = t
      · subst hut
        simp only [Function.update_self, Pc.assign.injEq] at hu
        simp only; omega
      · simp only [Function.update_of_ne hut] at hu
        exact Nat.lt_succ_of_lt (h.assign u a hu)
    · intro u hu
      by_cases hut : u = t
      · subst hut
        simp at hu
      · simp only [Function.update_of_ne hut] at hu
        exact h.load u hu
  · refine ⟨_, rfl, ⟨?_, ?_, fun _ _ => by simp, h.results, fun _ => by simp⟩⟩
    · intro b hb
      simp only [Option.some.injEq] at hb
      exact hb ▸ h.assign t a ht
    · intro u b hu
      by_cases hut : u = t
      · subst hut
        simp at hu
      · simp only [Function.update_of_ne hut] at hu
        exact h.assign u b hu
  · obtain ⟨a, ha⟩ := Option.ne_none_iff_exists'.mp (h.load t ht)
    refine ⟨_, by simp only [ha, Option.map_some]; rfl, ⟨?_, ?_, ?_, ?_, ?_⟩⟩
    · simpa [ha] using h.ptr a ha
    · intro u b hu
      by_cases hut : u = t
      · subst hut
        simp at hu
      · simp only [Function.update_of_ne hut] at hu
        exact h.assign u b hu
    · simp [ha]
    · intro r hr
      rcases List.mem_cons.mp hr with rfl | hr
      · exact h.ptr a ha
      · exact h.results r hr
    · simp [ha]

private theorem inv_start : Inv Singleton.start := ⟨by simp [Singleton.start], by simp [Singleton.start], by simp [Singleton.start], by simp [Singleton.start], by simp [Singleton.start]⟩

private theorem Inv.run {m : Singleton.Memory} (h : Inv m) (turns : List ℕ) : ∃ m', Singleton.run m turns = some m' ∧ Inv m' := by
  induction turns generalizing m with
  | nil => exact ⟨m, rfl, h⟩
  | cons t turns ih =>
    obtain ⟨m1, h1, h2⟩ := h.step t
    obtain ⟨m2, h3, h4⟩ := ih h2
    refine ⟨m2, ?_, h4⟩
    simp only [Singleton.run, List.foldlM_cons, h1, Option.bind_eq_bind, Option.bind_some]
    exact h3

/-- C143: in every interleaving, `instance()` never dereferences a null pointer, and returns objects that have been created. -/
theorem C143_exists (turns : List ℕ) : ∃ m, Singleton.run Singleton.start turns = some m ∧ ∀ r ∈ m.results, r.2 < m.made := by
  obtain ⟨m, h1, h2⟩ := inv_start.run turns
  exact ⟨m, h1, h2.results⟩

/-- settled: the object exists and nobody makes another -/
private structure Settled (a k : ℕ) (m : Singleton.Memory) : Prop where
  ptr : m.ptr = some a
  made : m.made = k
  pc : ∀ t, m.pc t = .idle ∨ m.pc t = .load

private theorem Settled.step {a k : ℕ} {m : Singleton.Memory} (h : Settled a k m) (t : ℕ) :
    ∃ m', Singleton.step m t = some m' ∧ Settled a k m' ∧ (m'.results = m.results ∨ m'.results = (t, a) :: m.results) := by
  unfold Singleton.step
  rcases h.pc t with ht | ht <;> rw [ht]
  · refine ⟨_, rfl, ⟨h.ptr, h.made, fun u => ?_⟩, .inl rfl⟩
    by_cases hut : u = t
    · subst hut
      right
      simp [h.ptr]
    · simp only [Function.update_of_ne hut]
      exact h.pc u
  · refine ⟨{ m with pc := Function.update m.pc t .idle, results := (t, a) :: m.results }, by simp only [h.ptr, Option.map_some],
      ⟨h.ptr, h.made, fun u => ?_⟩, .inr rfl⟩
    by_cases hut : u = t
    · subst hut
      left
      simp
    · simp only [Function.update_of_ne hut]
      exact h.pc u

private theorem Settled.run {a k : ℕ} {m : Singleton.Memory} (h : Settled a k m) (turns : List ℕ) :
    ∃ m', Singleton.run m turns = some m' ∧ Settled a k m' ∧ ∃ l, m'.results = l ++ m.results ∧ ∀ r ∈ l, r.2 = a := by
  induction turns generalizing m with
  | nil => exact ⟨m, rfl, h, [], rfl, by simp⟩
  | cons t turns ih =>
    obtain ⟨m1, h1, h2, h3⟩ := h.step t
    obtain ⟨m2, h4, h5, l, h6, h7⟩ := ih h2
    have hr : Singleton.run m (t :: turns) = some m2 := by
      simp only [Singleton.run, List.foldlM_cons, h1, Option.bind_eq_bind, Option.bind_some]
      exact h4
    rcases h3 with h3 | h3
    · exact ⟨m2, hr, h5, l, by rw [h6, h3], h7⟩
    · refine ⟨m2, hr, h5, l ++ [(t, a)], by rw [h6, h3]; simp, ?_⟩
      intro r hr
      rcases List.mem_append.mp hr with hr | hr
      · exact h7 r hr
      · rw [List.mem_singleton.mp hr]

/-- C143: once a call has returned and no other is under way, all further calls return one and the same object, whatever the threads do,
and no object is created any more. -/
theorem C143_after_first (turns : List ℕ) (m : Singleton.Memory) (h : Singleton.run Singleton.start turns = some m) (hq : Quiet m)
    (hr : m.results ≠ []) : ∃ a, ∀ more, ∃ m', Singleton.run m more = some m' ∧ m'.made = m.made ∧
      ∃ l, m'.results = l ++ m.results ∧ ∀ r ∈ l, r.2 = a := by
  obtain ⟨m1, h1, hi⟩ := inv_start.run turns
  rw [h, Option.some.injEq] at h1
  subst h1
  obtain ⟨a, ha⟩ := Option.ne_none_iff_exists'.mp (hi.returned hr)
  have hs : Settled a m.made m := ⟨ha, rfl, fun t => .inl (hq t)⟩
  refine ⟨a, fun more => ?_⟩
  obtain ⟨m', h1, h2, l, h3, h4⟩ := hs.run more
  exact ⟨m', h1, h2.made, l, h3, h4⟩

/-- one thread at a time -/
private structure Alone (m : Singleton.Memory) : Prop where
  made : m.made ≤ 1
  ptr : ∀ a, m.ptr = some a → a = 0
  unset : m.ptr = none → m.made = 0 ∨ ∃ t, m.pc t = .assign 0
  create : ∀ t, m.pc t = .create → m.ptr = none ∧ m.made = 0
  assign : ∀ t a, m.pc t = .assign a → m.ptr = none ∧ a = 0
  results : ∀ r ∈ m.results, r.2 = 0

private theorem Alone.step {m m' : Singleton.Memory} (h : Alone m) (t : ℕ) (hu : ∀ u, u ≠ t → m.pc u = .idle)
    (hs : Singleton.step m t = some m') : Alone m' := by
  unfold Singleton.step at hs
  rcases ht : m.pc t with _ | _ | a | _ <;> rw [ht] at hs
  · simp only [Option.some.injEq] at hs
    subst hs
    have hno : ∀ u a, m.pc u ≠ .assign a := by
      intro u a
      by_cases hut : u = t
      · rw [hut, ht]; simp
      · rw [hu u hut]; simp
    refine ⟨h.made, h.ptr, ?_, ?_, ?_, h.results⟩
    · intro hn
      rcases h.unset hn with h' | ⟨u, h'⟩
      · exact .inl h'
      · exact absurd h' (hno u 0)
    · intro u hc
      by_cases hut : u = t
      · subst hut
        simp only [Function.update_self] at hc
        split at hc
        case isTrue hn =>
          rcases h.unset hn with h' | ⟨v, h'⟩
          · exact ⟨hn, h'⟩
          · exact absurd h' (hno v 0)
        · cases hc
      · simp only [Function.update_of_ne hut, hu u hut] at hc
        cases hc
    · intro u a hc
      by_cases hut : u = t
      · subst hut
        simp only [Function.update_self] at hc
        split at hc <;> cases hc
      · simp only [Function.update_of_ne hut, hu u hut] at hc
        cases hc
  · simp only [Option.some.injEq] at hs
    subst hs
    obtain ⟨h1, h2⟩ := h.create t ht
    refine ⟨by simp only [h2]; exact Nat.le_refl _, h.ptr, fun _ => .inr ⟨t, by simp [h2]⟩, ?_, ?_, h.results⟩
    · intro u hc
      by_cases hut : u = t
      · subst hut
        simp at hc
      · simp only [Function.update_of_ne hut, hu u hut] at hc
        cases hc
    · intro u a hc
      by_cases hut : u = t
      · subst hut
        simp only [Function.update_self, Pc.assign.injEq] at hc
        exact ⟨h1, by omega⟩
      · simp only [Function.update_of_ne hut, hu u hut] at hc
        cases hc
  · simp only [Option.some.injEq] at hs
    subst hs
    obtain ⟨h1, rfl⟩ := h.assign t a ht
    refine ⟨h.made, by simp, by simp, ?_, ?_, h.results⟩
    · intro u hc
      by_cases hut : u = t
      · subst hut
        simp at hc
      · simp only [Function.update_of_ne hut, hu u hut] at hc
        cases hc
    · intro u a hc
      by_cases hut : u = t
      · subst hut
        simp at hc
      · simp only [Function.update_of_ne hut, hu u hut] at hc
        cases hc
  · simp only [Option.map_eq_some_iff] at hs
    obtain ⟨a, ha, rfl⟩ := hs
    refine ⟨h.made, h.ptr, fun hn => ?_, ?_, ?_, ?_⟩
    · simp only at hn
      rw [ha] at hn
      cases hn
    · intro u hc
      by_cases hut : u = t
      · subst hut
        simp at hc
      · simp only [Function.update_of_ne hut, hu u hut] at hc
        cases hc
    · intro u a hc
      by_cases hut : u = t
      · subst hut
        simp at hc
      · simp only [Function.update_of_ne hut, hu u hut] at hc
        cases hc
    · intro r hr
      rcases List.mem_cons.mp hr with rfl | hr
      · exact h.ptr a ha
      · exact h.results r hr

/-- C143, if there is one thread, or no two are in `instance()` at the same time: at most one object is created, and all calls return it.
Missing: threads that call `instance()` for the first time while another one does, for which it is false (below). -/
theorem C143_one_instance_partial (turns : List ℕ) (h : OneAtATime Singleton.start turns) (m : Singleton.Memory)
    (hm : Singleton.run Singleton.start turns = some m) : m.made ≤ 1 ∧ ∃ a, ∀ r ∈ m.results, r.2 = a := by
  have key : ∀ (turns : List ℕ) (m₀ m : Singleton.Memory), Alone m₀ → OneAtATime m₀ turns → Singleton.run m₀ turns = some m → Alone m := by
    intro turns
    induction turns with
    | nil =>
      intro m₀ m h0 _ hm
      simp only [Singleton.run, List.foldlM_nil, Option.pure_def, Option.some.injEq] at hm
      exact hm ▸ h0
    | cons t turns ih =>
      intro m₀ m h0 h1 hm
      simp only [Singleton.run, List.foldlM_cons, Option.bind_eq_bind, Option.bind_eq_some_iff] at hm
      obtain ⟨m1, hs, hm⟩ := hm
      refine ih m1 m (h0.step t (h1 [] t turns rfl m₀ rfl) hs) ?_ hm
      intro before u after heq m' hm'
      refine h1 (t :: before) u after (by rw [heq]; rfl) m' ?_
      simp only [Singleton.run, List.foldlM_cons, hs, Option.bind_eq_bind, Option.bind_some]
      exact hm'
  have := key turns Singleton.start m ⟨by simp [Singleton.start], by simp [Singleton.start], fun _ => .inl rfl, by simp [Singleton.start],
    by simp [Singleton.start], by simp [Singleton.start]⟩ h hm
  exact ⟨this.made, 0, this.results⟩

/-- C143 is false with two threads: both find no object, each makes one, and they get different ones. What the first thread does with its
object, e.g. registering a diagnostic, is lost for all calls afterwards. -/
theorem C143_violated_threads : ∃ turns m, Singleton.run Singleton.start turns = some m ∧ Quiet m ∧ m.made = 2 ∧
    m.results = [(1, 1), (0, 0)] ∧ m.ptr = some 1 :=
  ⟨[0, 1, 0, 0, 0, 1, 1, 1], _, rfl, by
    intro t
    by_cases h0 : t = 0
    · subst h0; rfl
    · by_cases h1 : t = 1
      · subst h1; rfl
      · simp [Singleton.start, Function.update, h0, h1], rfl, rfl, rfl⟩

/-- two threads, one after the other, and then the first again: there is one object -/
example : OneAtATime Singleton.start [5, 5, 5, 5, 7, 7, 5, 5] ∧
    ∃ m, Singleton.run Singleton.start [5, 5, 5, 5, 7, 7, 5, 5] = some m ∧ m.made = 1 ∧ m.results = [(5, 0), (7, 0), (5, 0)] ∧ Quiet m := by
  refine ⟨?_, _, rfl, rfl, rfl, ?_⟩
  · intro before t after heq m' hm' u hu
    have hlen : before.length < 8 := by
      have := congrArg List.length heq
      simp only [List.length_cons, List.length_nil, List.length_append] at this
      omega
    have ht : ([5, 5, 5, 5, 7, 7, 5, 5] : List ℕ)[before.length]? = some t := by rw [heq]; simp
    have hb : before = [5, 5, 5, 5, 7, 7, 5, 5].take before.length := by rw [heq]; simp
    rw [hb] at hm'
    generalize before.length = k at *
    have hcases : ∀ k < 8, ∀ m', Singleton.run Singleton.start ([5, 5, 5, 5, 7, 7, 5, 5].take k) = some m' →
        ([5, 5, 5, 5, 7, 7, 5, 5] : List ℕ)[k]? = some t → m'.pc u = .idle := by
      intro k hk m' hm' ht
      interval_cases k <;> simp only [List.getElem?_cons_zero, List.getElem?_cons_succ, Option.some.injEq] at ht <;> subst ht <;>
        simp [Singleton.run, Singleton.step, Singleton.start, Function.update] at hm' <;> subst hm' <;> simp [hu]
    exact hcases k hlen m' hm' ht
  · intro t
    simp only [Function.update, Singleton.start]
    split <;> simp

end

section

open UniqueThreads

/-- one thread at a time in the constructor -/
def OneIdAtATime (m : UniqueThreads.Memory) (turns : List ℕ) : Prop :=
  ∀ before t after, turns = before ++ t :: after → ∀ u, u ≠ t → (run m before).read u = none

private structure Ids (m : UniqueThreads.Memory) : Prop where
  nodup : m.ids.Nodup
  lt : ∀ i ∈ m.ids, i < m.runningId
  read : ∀ t i, m.read t = some i → i = m.runningId

private theorem Ids.step {m : UniqueThreads.Memory} (h : Ids m) (t : ℕ) (hu : ∀ u, u ≠ t → m.read u = none) : Ids (UniqueThreads.step m t) := by
  unfold UniqueThreads.step
  rcases ht : m.read t with _ | i
  · refine ⟨h.nodup, h.lt, fun u i hi => ?_⟩
    by_cases hut : u = t
    · subst hut
      simpa using hi.symm
    · simp only [Function.update_of_ne hut] at hi
      exact h.read u i hi
  · have hi := h.read t i ht
    subst hi
    refine ⟨?_, ?_, fun u j hj => ?_⟩
    · rw [List.nodup_cons]
      exact ⟨fun hm => lt_irrefl _ (h.lt _ hm), h.nodup⟩
    · intro j hj
      simp only
      rcases List.mem_cons.mp hj with rfl | hj
      · omega
      · have := h.lt j hj
        omega
    · by_cases hut : u = t
      · subst hut
        simp at hj
      · simp only [Function.update_of_ne hut, hu u hut] at hj
        cases hj

/-- C143: objects created by one thread, or by several but not at the same time, have different ids. Missing: several threads in the
constructor at the same time, for which it is false (below). -/
theorem C143_ids_partial (turns : List ℕ) (h : OneIdAtATime UniqueThreads.start turns) :
    (UniqueThreads.run UniqueThreads.start turns).ids.Nodup := by
  have key : ∀ (turns : List ℕ) (m : UniqueThreads.Memory), Ids m → OneIdAtATime m turns → Ids (UniqueThreads.run m turns) := by
    intro turns
    induction turns with
    | nil => intro m h0 _; exact h0
    | cons t turns ih =>
      intro m h0 h1
      refine ih (UniqueThreads.step m t) (h0.step t (h1 [] t turns rfl)) ?_
      intro before u after heq
      exact h1 (t :: before) u after (by rw [heq]; rfl)
  exact (key turns _ ⟨List.nodup_nil, by simp [UniqueThreads.start], by simp [UniqueThreads.start]⟩ h).nodup

/-- C143 is false with two threads: both read the counter before one of them has written it. -/
theorem C143_violated_ids : (UniqueThreads.run UniqueThreads.start [0, 1, 0, 1]).ids = [0, 0] := rfl

/-- three objects, by two threads -/
example : OneIdAtATime UniqueThreads.start [4, 4, 9, 9, 4, 4] ∧
    (UniqueThreads.run UniqueThreads.start [4, 4, 9, 9, 4, 4]).ids = [2, 1, 0] := by
  refine ⟨?_, rfl⟩
  intro before t after heq u hu
  have hlen : before.length < 6 := by
    have := congrArg List.length heq
    simp only [List.length_cons, List.length_nil, List.length_append] at this
    omega
  have ht : ([4, 4, 9, 9, 4, 4] : List ℕ)[before.length]? = some t := by rw [heq]; simp
  have hb : before = [4, 4, 9, 9, 4, 4].take before.length := by rw [heq]; simp
  rw [hb]
  generalize before.length = k at *
  have hcases : ∀ k < 6, ([4, 4, 9, 9, 4, 4] : List ℕ)[k]? = some t →
      (UniqueThreads.run UniqueThreads.start ([4, 4, 9, 9, 4, 4].take k)).read u = none := by
    intro k hk ht
    interval_cases k <;> simp only [List.getElem?_cons_zero, List.getElem?_cons_succ, Option.some.injEq] at ht <;> subst ht <;>
      simp [UniqueThreads.run, UniqueThreads.step, UniqueThreads.start, Function.update, hu]
  exact hcases k hlen ht

end

end Schnek.Props
