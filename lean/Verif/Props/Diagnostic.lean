import Verif.Lemma.Diagnostic

/-!
# What the properties say about diagnostics

C46, C47, C48, C66, C67.
-/

namespace Schnek.Props

open Schnek.Diagnostic Schnek.Spec Schnek.Lemma.Diag

/-! ## interval diagnostics -/

/-- C46: a diagnostic that does not append writes at the steps that are due, and at no others. Each time it opens the file for that
step, writes to it once, and closes it. -/
theorem C46_separate_files (d : Interval) (master : Bool) (rank : ℤ) (steps : List ℤ) (hi : d.interval ≠ 0)
    (ha : d.append = false) (hs : d.single = true → master = true) :
    ∃ calls, callsFor d master rank steps = some calls ∧
      files none calls = some ((steps.filter (Due d.interval)).map (parsedFileName d.fname rank), none) := by
  induction steps with
  | nil => exact ⟨[], rfl, rfl⟩
  | cons t ts ih =>
    obtain ⟨calls, h1, h2⟩ := ih
    rw [callsFor_cons, interval_execute d master rank t hi hs, h1]
    refine ⟨_, rfl, ?_⟩
    rw [files_append]
    by_cases hd : Due d.interval t
    · rw [List.filter_cons_of_pos (by simpa using hd)]
      simp [ha, hd, output, files, h2]
    · rw [List.filter_cons_of_neg (by simpa using hd)]
      simp [ha, hd, files, h2]

/-- C46: a diagnostic that appends, and that is executed at step 0 first and then never again, opens its file once and writes to it at the
steps that are due. -/
theorem C46_append_partial (d : Interval) (master : Bool) (rank : ℤ) (steps : List ℤ) (h0 : 0 ∉ steps) (hi : d.interval ≠ 0)
    (ha : d.append = true) (hs : d.single = true → master = true) :
    ∃ calls, callsFor d master rank (0 :: steps) = some calls ∧
      files none calls = some (((0 :: steps).filter (Due d.interval)).map fun _ => d.fname, some d.fname) := by
  have key : ∀ ts : List ℤ, 0 ∉ ts → ∃ calls, callsFor d master rank ts = some calls ∧
      files (some d.fname) calls = some ((ts.filter (Due d.interval)).map fun _ => d.fname, some d.fname) := by
    intro ts
    induction ts with
    | nil => exact fun _ => ⟨[], rfl, rfl⟩
    | cons t ts ih =>
      intro ht
      obtain ⟨calls, h1, h2⟩ := ih fun h => ht (by simp [h])
      have hne : t ≠ 0 := fun h => ht (by simp [h])
      rw [callsFor_cons, interval_execute d master rank t hi hs, h1]
      refine ⟨_, rfl, ?_⟩
      rw [files_append]
      by_cases hd : Due d.interval t
      · rw [List.filter_cons_of_pos (by simpa using hd)]
        simp [ha, hd, hne, output, files, h2]
      · rw [List.filter_cons_of_neg (by simpa using hd)]
        simp [hd, hne, files, h2]
  obtain ⟨calls, h1, h2⟩ := key steps h0
  have hd : Due d.interval 0 := Or.inr (dvd_zero _)
  rw [callsFor_cons, interval_execute d master rank 0 hi hs, h1]
  refine ⟨_, rfl, ?_⟩
  rw [files_append, List.filter_cons_of_pos (by simpa using hd)]
  simp [ha, hd, output, files, h2]

/-- C46: with a single output, processes other than the master do nothing. -/
theorem C46_single (d : Interval) (rank : ℤ) (steps : List ℤ) (hs : d.single = true) : callsFor d false rank steps = some [] := by
  induction steps with
  | nil => rfl
  | cons t ts ih =>
    rw [callsFor_cons, ih]
    simp [Interval.execute, hs]

variable {K : Type} [Field K] [LinearOrder K] [IsStrictOrderedRing K]

/-- C46: in a simulation the interval diagnostics are executed for the steps of the simulation. -/
theorem C46_simulation (M : Manager K) (t : ℤ) (now : K) (dts : List K) (log : List (Entry K)) (h : simulate M t now dts = some log)
    (i : ℕ) (d : Interval) (hd : M.intervals[i]? = some d) :
    log.map Entry.step = (List.range dts.length).map (fun k : ℕ => t + k) ∧
    callsFor d M.master M.rank (log.map Entry.step) = some (log.flatMap fun e => e.intervals[i]?.getD []) := by
  induction dts generalizing M t now log with
  | nil =>
    have : log = [] := by simpa [simulate] using h.symm
    subst this
    exact ⟨rfl, rfl⟩
  | cons dt dts ih =>
    obtain ⟨c, c', M', a, log', h1, -, h3, rfl⟩ := simulate_cons h
    obtain ⟨e1, e2, e3, -, e5⟩ := execute_ok h1
    obtain ⟨l, hl1, hl2⟩ := e5 i d hd
    obtain ⟨i1, i2⟩ := ih M' (t + 1) (now + a) log' h3 (by rw [e3]; exact hd)
    rw [e1, e2] at i2
    constructor
    · rw [List.map_cons, i1, List.length_cons, List.range_succ_eq_map, List.map_cons, List.map_map]
      simp only [Nat.cast_zero, add_zero, List.cons.injEq, true_and]
      apply List.map_congr_left
      intro k _
      simp only [Function.comp, Nat.cast_succ]
      ring
    · rw [List.map_cons, callsFor_cons, i2, hl1, List.flatMap_cons, hl2]
      rfl

/-! ## physical time diagnostics -/

/-- C47: the time step from `adjustDeltaT` is at most the one asked for, and positive, and with it the simulation does not step over the
next output of any diagnostic. -/
theorem C47_adjust (M : Manager K) (now dt a : K) (h : M.adjustDeltaT now dt = some a) :
    a ≤ dt ∧ (0 < dt → 0 < a) ∧ ∀ d ∈ M.deltas, now < d.nextOutput → now + a ≤ d.nextOutput := adjust_spec M now dt a h

/-- C47: in a simulation that starts at or before the first output of a diagnostic, the outputs of the diagnostic are at
`delay + k * deltaTime`, exactly, for all `k` for which this time is not after the end of the simulation. -/
theorem C47_times_partial (M : Manager K) (t : ℤ) (now : K) (dts : List K) (log : List (Entry K))
    (h : simulate M t now dts = some log) (i : ℕ) (d : Delta K) (hd : M.deltas[i]? = some d) (hdelta : 0 < d.deltaTime)
    (hnow : 0 ≤ now) (hstart : now ≤ d.nextOutput) (hs : d.single = true → M.master = true) (hpos : ∀ dt ∈ dts, 0 < dt) :
    ∃ m : ℕ, writeTimes i log = (List.range m).map (fun k : ℕ => d.nextOutput + (k : K) * d.deltaTime) ∧
      ∀ k : ℕ, k < m ↔ ∃ e ∈ log, d.nextOutput + (k : K) * d.deltaTime ≤ e.now := by
  obtain ⟨m, h1, h2, -⟩ := sim_delta i h hd hdelta hstart hnow hs hpos
  exact ⟨m, h1, h2⟩

theorem files_outputs (s : Settings) (ha : s.append = false) (rank : ℤ) (c : ℕ) (l : List ℕ) :
    files none (l.flatMap fun k => output s rank (c + k : ℕ)) =
      some (l.map fun k : ℕ => parsedFileName s.fname rank (c + k : ℕ), none) := by
  induction l with
  | nil => rfl
  | cons k l ih =>
    have : files none (output s rank (c + k : ℕ)) = some ([parsedFileName s.fname rank (c + k : ℕ)], none) := by
      simp [output, ha, files]
    rw [List.flatMap_cons, files_append, this, Option.bind_some, ih]
    rfl

theorem files_outputs_append (s : Settings) (ha : s.append = true) (rank : ℤ) (c : ℕ) (l : List ℕ) :
    files (some s.fname) (l.flatMap fun k => output s rank (c + k : ℕ)) = some (l.map fun _ => s.fname, some s.fname) := by
  induction l with
  | nil => rfl
  | cons k l ih =>
    have : files (some s.fname) (output s rank (c + k : ℕ)) = some ([s.fname], some s.fname) := by
      simp [output, ha, files]
    rw [List.flatMap_cons, files_append, this, Option.bind_some, ih]
    rfl

/-- C47: the `k`-th output goes to the file with number `k`, which is opened for it and closed; if the diagnostic appends and the
simulation starts at time 0, all outputs go to the same file, which is opened once. -/
theorem C47_files_partial (M : Manager K) (t : ℤ) (now : K) (dts : List K) (log : List (Entry K))
    (h : simulate M t now dts = some log) (i : ℕ) (d : Delta K) (hd : M.deltas[i]? = some d) (hdelta : 0 < d.deltaTime)
    (hnow : 0 ≤ now) (hstart : now ≤ d.nextOutput) (hs : d.single = true → M.master = true) (hpos : ∀ dt ∈ dts, 0 < dt)
    (hcount : d.count = 0) (hne : log ≠ []) :
    (d.append = false → files none (log.flatMap (callsOf i)) =
      some ((List.range (writeTimes i log).length).map (fun k : ℕ => parsedFileName d.fname M.rank k), none)) ∧
    (d.append = true → now = 0 → files none (log.flatMap (callsOf i)) =
      some (List.replicate (writeTimes i log).length d.fname, some d.fname)) := by
  obtain ⟨m, h1, -, h3⟩ := sim_delta i h hd hdelta hstart hnow hs hpos
  rw [h1, h3, List.length_map, List.length_range, hcount]
  constructor
  · intro ha
    rw [if_neg (by simp [ha]), List.nil_append]
    have := files_outputs d.toSettings ha M.rank 0 (List.range m)
    rw [this]
    simp
  · intro ha h0
    rw [if_pos ⟨h0.symm, ha, hne⟩]
    have := files_outputs_append d.toSettings ha M.rank 0 (List.range m)
    rw [List.singleton_append, files, this]
    congr 2
    rw [List.eq_replicate_iff]
    simp

/-! ## the manager -/

/-- C48: `execute` throws an exception if no clock has been set. -/
theorem C48_no_clock (M : Manager K) (t : ℤ) (now : K) (h1 : M.timecounter = false) (h2 : M.physicalTime = false) :
    M.execute t now = .exception := by
  unfold Manager.execute
  rw [if_pos]
  rw [h1, h2]
  cases M.usePhysicalTime <;> rfl

/-- the manager after the calls -/
private theorem setUp_eq (calls : List (SetUp K)) : ∃ M : Manager K, calls.foldl Manager.setUp Manager.new = M ∧ M.intervals = intervalsOf calls ∧
    M.deltas = deltasOf calls ∧ M.master = masterOf calls ∧ M.rank = rankOf calls ∧ (M.timecounter = true ↔ .timeCounter ∈ calls) ∧
    (M.physicalTime = true ↔ .physicalTime ∈ calls) ∧ (M.usePhysicalTime = true → M.physicalTime = true) ∧
    (M.usePhysicalTime = false → M.physicalTime = true → M.timecounter = true) := by
  induction calls using List.reverseRecOn with
  | nil => exact ⟨_, rfl, rfl, rfl, rfl, rfl, by simp [Manager.new], by simp [Manager.new], by simp [Manager.new], by simp [Manager.new]⟩
  | append_singleton calls c ih =>
    obtain ⟨M, h0, h1, h2, h3, h4, h5, h6, h7, h8⟩ := ih
    rw [List.foldl_append, h0]
    refine ⟨_, rfl, ?_⟩
    unfold intervalsOf at h1
    unfold deltasOf at h2
    unfold masterOf at h3
    unfold rankOf at h4
    cases c <;>
      simp_all [Manager.setUp, Manager.addInterval, Manager.addDelta, Manager.setTimeCounter, Manager.setPhysicalTime, Manager.setMaster, Manager.setRank,
        intervalsOf, deltasOf, masterOf, rankOf, List.filterMap_append]

/-- C48, for every sequence of calls that set up the manager, if the diagnostics exist and no interval is zero. Without a clock, `execute` throws an
exception. With the clocks that are needed, all diagnostics are executed, those with an interval first, each once and in the order of their construction, with the
rank that was set last. Without a clock that is needed the behaviour is undefined. -/
theorem C48_histories_partial (calls : List (SetUp K)) (t : ℤ) (now : K) (hi : ∀ d ∈ intervalsOf calls, d.alive = true ∧ d.interval ≠ 0)
    (hd : ∀ d ∈ deltasOf calls, d.alive = true) :
    (.timeCounter ∉ calls → .physicalTime ∉ calls → (calls.foldl Manager.setUp Manager.new).execute t now = .exception) ∧
    (.timeCounter ∈ calls ∨ .physicalTime ∈ calls → (intervalsOf calls ≠ [] → .timeCounter ∈ calls) → (deltasOf calls ≠ [] → .physicalTime ∈ calls) →
      ∃ M, (calls.foldl Manager.setUp Manager.new).execute t now =
        .ok ((intervalsOf calls).map fun d => (d.execute (masterOf calls) (rankOf calls) t).getD [])
          ((deltasOf calls).map fun d => (d.execute (masterOf calls) (rankOf calls) now).1) M ∧
        M.intervals = intervalsOf calls ∧ M.deltas = (deltasOf calls).map fun d => (d.execute (masterOf calls) (rankOf calls) now).2) ∧
    (.timeCounter ∈ calls ∨ .physicalTime ∈ calls →
      (intervalsOf calls ≠ [] ∧ .timeCounter ∉ calls) ∨ (deltasOf calls ≠ [] ∧ .physicalTime ∉ calls) →
      (calls.foldl Manager.setUp Manager.new).execute t now = .ub) := by
  obtain ⟨M, h0, h1, h2, h3, h4, h5, h6, h7, h8⟩ := setUp_eq calls
  rw [h0]
  have hi' : ∀ d ∈ intervalsOf calls, ∃ c, d.execute M.master M.rank t = some c := by
    intro d hdm
    unfold Interval.execute
    split
    · exact ⟨_, rfl⟩
    · simp only
      rw [if_neg (hi d hdm).2]
      split
      · exact ⟨_, rfl⟩
      · split <;> exact ⟨_, rfl⟩
  have mapM_of : ∀ {α β : Type} (f : α → Option β) (g : α → β) (l : List α), (∀ a ∈ l, f a = some (g a)) → l.mapM f = some (l.map g) := by
    intro α β f g l
    induction l with
    | nil => exact fun _ => rfl
    | cons a l ih =>
      intro hl
      rw [List.mapM_cons, hl a List.mem_cons_self, ih fun x hx => hl x (List.mem_cons_of_mem _ hx)]
      rfl
  have hclock : (.timeCounter ∈ calls ∨ .physicalTime ∈ calls) →
      ¬ ((!M.usePhysicalTime && !M.timecounter) || (M.usePhysicalTime && !M.physicalTime)) = true := by
    intro h
    rw [← h5, ← h6] at h
    revert h h7 h8
    cases M.usePhysicalTime <;> cases M.timecounter <;> cases M.physicalTime <;> simp
  have hI : M.timecounter = true → executeIntervals M.timecounter M.master M.rank t M.intervals =
      some ((intervalsOf calls).map fun d => (d.execute (masterOf calls) (rankOf calls) t).getD []) := by
    intro hc
    unfold executeIntervals
    rw [h1]
    apply mapM_of
    intro d hdm
    obtain ⟨c, hc'⟩ := hi' d hdm
    rw [hc, (hi d hdm).1, ← h3, ← h4, hc']
    rfl
  have hI0 : intervalsOf calls = [] → executeIntervals M.timecounter M.master M.rank t M.intervals =
      some ((intervalsOf calls).map fun d => (d.execute (masterOf calls) (rankOf calls) t).getD []) := by
    intro hc
    rw [h1, hc]
    rfl
  refine ⟨fun a b => ?_, fun a b c => ?_, fun a b => ?_⟩
  · unfold Manager.execute
    rw [if_pos]
    rw [← h5] at a
    rw [← h6] at b
    revert a b
    cases M.usePhysicalTime <;> cases M.timecounter <;> cases M.physicalTime <;> simp
  · have hI' : executeIntervals M.timecounter M.master M.rank t M.intervals =
        some ((intervalsOf calls).map fun d => (d.execute (masterOf calls) (rankOf calls) t).getD []) := by
      by_cases he : intervalsOf calls = []
      · exact hI0 he
      · exact hI (h5.mpr (b he))
    have hD : executeDeltas M.physicalTime M.master M.rank now M.deltas =
        some ((deltasOf calls).map fun d => d.execute (masterOf calls) (rankOf calls) now) := by
      unfold executeDeltas
      rw [h2]
      apply mapM_of
      intro d hdm
      rw [h6.mpr (c (List.ne_nil_of_mem hdm)), hd d hdm, ← h3, ← h4]
      rfl
    unfold Manager.execute
    rw [if_neg (hclock a), hI']
    simp only
    rw [hD]
    simp only [List.map_map, Function.comp_def]
    exact ⟨_, rfl, h1, rfl⟩
  · unfold Manager.execute
    rw [if_neg (hclock a)]
    rcases b with ⟨b1, b2⟩ | ⟨b1, b2⟩
    · obtain ⟨d, l, hdl⟩ := List.exists_cons_of_ne_nil b1
      have : executeIntervals M.timecounter M.master M.rank t M.intervals = none := by
        unfold executeIntervals
        rw [h1, hdl, List.mapM_cons, if_neg]
        · rfl
        · rw [← h5] at b2
          simp [b2]
      rw [this]
    · obtain ⟨d, l, hdl⟩ := List.exists_cons_of_ne_nil b1
      have : executeDeltas M.physicalTime M.master M.rank now M.deltas = none := by
        unfold executeDeltas
        rw [h2, hdl, List.mapM_cons, if_neg]
        · rfl
        · rw [← h6] at b2
          simp [b2]
      rw [this]
      split
      · rfl
      · rfl

/-- C48: when all clocks that are needed have been set, all diagnostics exist, and no interval is zero, `execute` succeeds and so does
`adjustDeltaT`. -/
theorem C48_clocks_partial (M : Manager K) (t : ℤ) (now dt : K) (hu : if M.usePhysicalTime then M.physicalTime else M.timecounter)
    (hc : M.intervals ≠ [] → M.timecounter = true) (hp : M.deltas ≠ [] → M.physicalTime = true)
    (hi : ∀ d ∈ M.intervals, d.alive = true ∧ d.interval ≠ 0) (hd : ∀ d ∈ M.deltas, d.alive = true) :
    (∃ c c' M', M.execute t now = .ok c c' M') ∧ ∃ a, M.adjustDeltaT now dt = some a := by
  have mapM_some : ∀ {α β : Type} (f : α → Option β) (l : List α), (∀ a ∈ l, ∃ b, f a = some b) → ∃ r, l.mapM f = some r := by
    intro α β f l
    induction l with
    | nil => exact fun _ => ⟨[], rfl⟩
    | cons a l ih =>
      intro hl
      obtain ⟨b, hb⟩ := hl a (by simp)
      obtain ⟨r, hr⟩ := ih fun x hx => hl x (by simp [hx])
      exact ⟨b :: r, by rw [List.mapM_cons, hb, hr]; rfl⟩
  constructor
  · unfold Manager.execute
    rw [if_neg]
    · obtain ⟨r, hr⟩ := mapM_some (fun d => if M.timecounter && d.alive then d.execute M.master M.rank t else none) M.intervals (by
        intro d hdm
        rw [hc (List.ne_nil_of_mem hdm), (hi d hdm).1]
        simp only [Bool.and_self, if_true]
        unfold Interval.execute
        split
        · exact ⟨_, rfl⟩
        · simp only
          rw [if_neg (hi d hdm).2]
          split
          · exact ⟨_, rfl⟩
          · split <;> exact ⟨_, rfl⟩)
      obtain ⟨r', hr'⟩ := mapM_some (fun d => if M.physicalTime && d.alive then some (d.execute M.master M.rank now) else none) M.deltas (by
        intro d hdm
        rw [hp (List.ne_nil_of_mem hdm), hd d hdm]
        exact ⟨_, rfl⟩)
      unfold executeIntervals executeDeltas
      rw [hr]
      simp only
      rw [hr']
      exact ⟨_, _, _, rfl⟩
    · revert hu
      cases M.usePhysicalTime <;> cases M.timecounter <;> cases M.physicalTime <;> simp
  · unfold Manager.adjustDeltaT
    have : ∀ (l : List (Delta K)) (dt : K), (∀ d ∈ l, M.physicalTime = true ∧ d.alive = true) →
        ∃ a, l.foldlM (fun (adjusted : K) d =>
          if M.physicalTime && d.alive then
            let left := d.nextOutput - now
            some (if 0 < left then min adjusted left else adjusted)
          else none) dt = some a := by
      intro l
      induction l with
      | nil => intro dt _; exact ⟨dt, rfl⟩
      | cons d l ih =>
        intro dt hl
        obtain ⟨a, ha⟩ := ih (if 0 < d.nextOutput - now then min dt (d.nextOutput - now) else dt) fun x hx => hl x (by simp [hx])
        refine ⟨a, ?_⟩
        rw [List.foldlM_cons, (hl d (by simp)).1, (hl d (by simp)).2]
        have h1 := (hl d (by simp)).1
        rw [h1] at ha
        exact ha
    exact this M.deltas dt fun d hdm => ⟨hp (List.ne_nil_of_mem hdm), hd d hdm⟩

/-! ## processes -/

omit [IsStrictOrderedRing K] in
theorem execute_deltas {M M' : Manager K} {t : ℤ} {now : K} {c c' : List (List Call)} (h : M.execute t now = .ok c c' M') :
    M'.deltas = M.deltas.map (fun d => (d.execute M.master M.rank now).2) ∧ M'.physicalTime = M.physicalTime := by
  have key : ∀ (l : List (Delta K)) r, executeDeltas M.physicalTime M.master M.rank now l = some r →
      r = l.map fun d => d.execute M.master M.rank now := by
    intro l
    unfold executeDeltas
    induction l with
    | nil => intro r h; simpa using h.symm
    | cons d l ih =>
      intro r h
      rw [List.mapM_cons] at h
      split at h
      · rcases hl : l.mapM (fun d : Delta K => if M.physicalTime && d.alive then some (d.execute M.master M.rank now) else none) with _ | r'
        · rw [hl] at h; simp at h
        · rw [hl] at h
          have h : d.execute M.master M.rank now :: r' = r := by simpa using h
          rw [← h, ih r' hl]
          rfl
      · simp at h
  unfold Manager.execute at h
  split at h
  · simp at h
  · rcases hi : executeIntervals M.timecounter M.master M.rank t M.intervals with _ | calls
    · rw [hi] at h; simp at h
    · rw [hi] at h
      rcases hd : executeDeltas M.physicalTime M.master M.rank now M.deltas with _ | l
      · rw [hd] at h; simp at h
      · rw [hd] at h
        simp only [Outcome.ok.injEq] at h
        obtain ⟨h1, h2, h3⟩ := h
        subst h1 h2 h3
        refine ⟨?_, rfl⟩
        simp only
        rw [key _ _ hd, List.map_map]
        rfl

omit [IsStrictOrderedRing K] in
theorem deltas_history (hist : List (ℤ × K)) : ∀ (M M' N N' : Manager K), M.deltas = N.deltas → (∀ d ∈ M.deltas, d.single = false) →
    history M hist = some M' → history N hist = some N' →
    M'.deltas = N'.deltas ∧ M'.physicalTime = M.physicalTime ∧ N'.physicalTime = N.physicalTime := by
  induction hist with
  | nil =>
    intro M M' N N' hd _ hM hN
    simp only [history, Option.some.injEq] at hM hN
    subst hM hN
    exact ⟨hd, rfl, rfl⟩
  | cons tn hist ih =>
    obtain ⟨t, now⟩ := tn
    intro M M' N N' hd hs hM hN
    rw [history] at hM hN
    split at hM
    · rename_i c1 c1' M1 hM1
      split at hN
      · rename_i c2 c2' N1 hN1
        obtain ⟨h1, h2⟩ := execute_deltas hM1
        obtain ⟨h3, h4⟩ := execute_deltas hN1
        have heq : M1.deltas = N1.deltas := by
          rw [h1, h3, ← hd]
          apply List.map_congr_left
          intro d hdm
          unfold Delta.execute
          rw [hs d hdm]
          simp only [Bool.false_and, Bool.false_eq_true, if_false]
          split <;> rfl
        obtain ⟨i1, i2, i3⟩ := ih M1 M' N1 N' heq (by
          intro d hdm
          rw [h1, List.mem_map] at hdm
          obtain ⟨d0, hd0, rfl⟩ := hdm
          have := hs d0 hd0
          unfold Delta.execute
          rw [this]
          simp only [Bool.false_and, Bool.false_eq_true, if_false]
          split <;> exact this) hM hN
        exact ⟨i1, by rw [i2, h2], by rw [i3, h4]⟩
      · simp at hN
    · simp at hM

omit [IsStrictOrderedRing K] in
/-- C67: two processes with the same physical time diagnostics, none of them with a single output, that have executed them at the same
times, get the same time step from `adjustDeltaT`. -/
theorem C67_same_step_partial (M M' N N' : Manager K) (hist : List (ℤ × K)) (hd : M.deltas = N.deltas)
    (hc : M.physicalTime = N.physicalTime) (hs : ∀ d ∈ M.deltas, d.single = false)
    (hM : history M hist = some M') (hN : history N hist = some N') (now dt : K) :
    M'.adjustDeltaT now dt = N'.adjustDeltaT now dt := by
  obtain ⟨h1, h2, h3⟩ := deltas_history hist M M' N N' hd hs hM hN
  unfold Manager.adjustDeltaT
  rw [h1, h2, h3, hc]

/-! ## file names -/

/-- C66: a name without placeholders is used as it is. -/
theorem C66_plain (fname : List Char) (rank t : ℤ) (hp : ¬ Placeholder 'p' fname) (ht : ¬ Placeholder 't' fname) :
    parsedFileName fname rank t = fname := by
  unfold parsedFileName
  rw [replaceFirst_none 'p' _ fname hp, replaceFirst_none 't' _ fname ht]

/-- C66: with `#t` in the name, a process uses different names for different steps. All negative steps count as the final one. -/
theorem C66_steps (fname : List Char) (ht : Placeholder 't' fname) (rank t t' : ℤ)
    (h : parsedFileName fname rank t = parsedFileName fname rank t') : t = t' ∨ (t < 0 ∧ t' < 0) := by
  unfold parsedFileName at h
  obtain ⟨a, b, -, hab⟩ := replaceFirst_some 't' _ (placeholder_kept 't' 'p' (by decide) (by decide) (by decide) (decimal rank) fname ht)
  rw [hab, hab, List.append_left_inj, List.append_right_inj] at h
  exact stepName_inj h

/-- C66: with `#p` in the name, different processes use different names for the same step. -/
theorem C66_processes (fname : List Char) (hp : Placeholder 'p' fname) (rank rank' t : ℤ)
    (h : parsedFileName fname rank t = parsedFileName fname rank' t) : rank = rank' := by
  unfold parsedFileName at h
  obtain ⟨a, b, -, hab⟩ := replaceFirst_some 'p' fname hp
  obtain ⟨a', b', hab'⟩ := replaceFirst_around 't' (stepName t) a b
  rw [hab, hab, hab' _ (decimal_apart rank 't' (by decide) (by decide)), hab' _ (decimal_apart rank' 't' (by decide) (by decide)),
    List.append_left_inj, List.append_right_inj] at h
  exact decimal_inj h

theorem prefix_digits (d d' : List Char) (hd : ∀ c ∈ d, c.isDigit = true) (hd' : ∀ c ∈ d', c.isDigit = true) (x : Char)
    (hx : x.isDigit = false) (r r' : List Char) (h : d ++ x :: r = d' ++ x :: r') : d = d' ∧ r = r' := by
  induction d generalizing d' with
  | nil =>
    cases d' with
    | nil =>
      simp only [List.nil_append, List.cons.injEq, true_and] at h
      exact ⟨rfl, h⟩
    | cons y d' =>
      simp only [List.nil_append, List.cons_append, List.cons.injEq] at h
      have := hd' y (by simp)
      rw [← h.1, hx] at this
      simp at this
  | cons y d ih =>
    cases d' with
    | nil =>
      simp only [List.nil_append, List.cons_append, List.cons.injEq] at h
      have := hd y (by simp)
      rw [h.1, hx] at this
      simp at this
    | cons z d' =>
      simp only [List.cons_append, List.cons.injEq] at h
      obtain ⟨h1, h2⟩ := ih d' (fun c hc => hd c (by simp [hc])) (fun c hc => hd' c (by simp [hc])) h.2
      exact ⟨by rw [h.1, h1], h2⟩

/-- C66: different processes and steps use different names, if `#p` comes first in the name, then `#t`, with something between them
that is not only digits. -/
theorem C66_both_partial (a b c : List Char) (ha : ∀ x ∈ a, x ≠ '#') (hb : ∀ x ∈ b, x ≠ '#') (x : Char) (hxb : x ∈ b)
    (hx : x.isDigit = false) (rank rank' t t' : ℤ) (hr : 0 ≤ rank) (hr' : 0 ≤ rank')
    (h : parsedFileName (a ++ '#' :: 'p' :: b ++ '#' :: 't' :: c) rank t = parsedFileName (a ++ '#' :: 'p' :: b ++ '#' :: 't' :: c) rank' t') :
    rank = rank' ∧ (t = t' ∨ (t < 0 ∧ t' < 0)) := by
  have key : ∀ rank t : ℤ, parsedFileName (a ++ '#' :: 'p' :: b ++ '#' :: 't' :: c) rank t =
      a ++ (decimal rank ++ (b ++ (stepName t ++ c))) := by
    intro rank t
    unfold parsedFileName
    rw [List.append_assoc, List.cons_append, List.cons_append, replaceFirst_apart 'p' _ a _ ha, replaceFirst_hit,
      replaceFirst_apart 't' _ a _ ha, replaceFirst_apart 't' _ (decimal rank) _
        (fun y hy => ((decimal_apart rank 't' (by decide) (by decide)).2 y hy).1), replaceFirst_apart 't' _ b _ hb, replaceFirst_hit]
  rw [key, key, List.append_right_inj] at h
  have hdig : ∀ r : ℤ, 0 ≤ r → ∀ y ∈ decimal r, y.isDigit = true := by
    intro r hr y hy
    unfold decimal at hy
    rw [if_neg (by omega)] at hy
    exact decimalNat_digit _ y hy
  -- the first character of `b` that is not a digit
  have hsplit : ∀ b : List Char, x ∈ b → ∃ b1 z b2, b = b1 ++ z :: b2 ∧ (∀ y ∈ b1, y.isDigit = true) ∧ z.isDigit = false := by
    intro b
    induction b with
    | nil => intro h; simp at h
    | cons y b ih =>
      intro hm
      by_cases hy : y.isDigit = true
      · rcases List.mem_cons.mp hm with rfl | hm
        · rw [hx] at hy; simp at hy
        · obtain ⟨b1, z, b2, h1, h2, h3⟩ := ih hm
          refine ⟨y :: b1, z, b2, by rw [h1]; rfl, ?_, h3⟩
          intro w hw
          rcases List.mem_cons.mp hw with rfl | hw
          · exact hy
          · exact h2 w hw
      · exact ⟨[], y, b, rfl, by simp, by simpa using hy⟩
  obtain ⟨b1, z, b2, hb1, hb2, hz⟩ := hsplit b hxb
  rw [hb1, List.append_assoc, List.cons_append, List.append_assoc, List.cons_append, ← List.append_assoc (decimal rank),
    ← List.append_assoc (decimal rank')] at h
  have hboth : ∀ r : ℤ, 0 ≤ r → ∀ y ∈ decimal r ++ b1, y.isDigit = true := by
    intro r hr y hy
    rcases List.mem_append.mp hy with hy | hy
    · exact hdig r hr y hy
    · exact hb2 y hy
  obtain ⟨h1, h2⟩ := prefix_digits _ _ (hboth rank hr) (hboth rank' hr') z hz _ _ h
  rw [List.append_left_inj] at h1
  rw [List.append_right_inj, List.append_left_inj] at h2
  exact ⟨decimal_inj h1, stepName_inj h2⟩

/-! ## examples -/

/-- file `out#t` -/
def outFile (append single : Bool) : Settings := ⟨"out#t".toList, append, single, true⟩

/-- C46 for a diagnostic with interval 2, executed at steps 0 to 3 and at the end -/
example : (callsFor ⟨outFile false false, 2⟩ true 0 [0, 1, 2, 3, -1]).bind (files none) =
    some (["out0".toList, "out2".toList, "outfinal".toList], none) := by decide +kernel

example : (callsFor ⟨outFile true false, 2⟩ true 0 [0, 1, 2, 3, -1]).bind (files none) =
    some (["out#t".toList, "out#t".toList, "out#t".toList], some "out#t".toList) := by decide +kernel

/-- C46 is false for a diagnostic that appends if the run does not begin at step 0, for example because it is restarted: the diagnostic
writes although no file is open. -/
theorem C46_violated_restart : callsFor ⟨outFile true false, 2⟩ true 0 [4, 5] = some [.write] ∧ files none [.write] = none := by
  constructor
  · decide +kernel
  · rfl

/-- a manager with one physical time diagnostic, with delay 1/2 and time step 1 -/
def exampleManager (append single : Bool) : Manager ℚ :=
  (Manager.new.setPhysicalTime).addDelta ⟨outFile append single, 1, 1 / 2, 0⟩

/-- The hypotheses of C47 are met: with a time step of 2/5 the times are 0, 2/5, 1/2, 9/10, 13/10, 3/2. -/
example : (simulate (exampleManager false false) 0 0 [2 / 5, 2 / 5, 2 / 5, 2 / 5, 2 / 5, 2 / 5]).map
    (fun log => (log.map Entry.now, writeTimes 0 log)) = some ([0, 2 / 5, 1 / 2, 9 / 10, 13 / 10, 3 / 2], [1 / 2, 3 / 2]) := by
  decide +kernel

/-- C47 is false for a run that begins after the first output was due: the outputs for 1/2, 3/2 and 5/2 are all late. -/
theorem C47_violated_restart : (simulate (exampleManager false false) 0 5 [2 / 5, 2 / 5, 2 / 5]).map
    (writeTimes 0) = some [5, 27 / 5, 29 / 5] := by decide +kernel

/-- C47 is false for a diagnostic that appends if the run does not begin at time 0: it writes although no file is open. -/
theorem C47_violated_append : (simulate (exampleManager true false) 0 (1 / 2) [2 / 5]).map
    (fun log => (log.flatMap (callsOf 0), files none (log.flatMap (callsOf 0)))) = some ([.write], none) := by decide +kernel

/-- C48 is false: there is an interval diagnostic, and only the physical time has been set. -/
theorem C48_violated_clock : ((Manager.new.addInterval ⟨outFile false false, 2⟩).setPhysicalTime : Manager ℚ).execute 0 0 = .ub := rfl

/-- C48 is false: there is a physical time diagnostic, and only the time counter has been set. -/
theorem C48_violated_time : let M := ((Manager.new.addDelta ⟨outFile false false, 1, 0, 0⟩).setTimeCounter : Manager ℚ)
    M.execute 0 0 = .ub ∧ M.adjustDeltaT 0 1 = none := ⟨rfl, rfl⟩

/-- C48 is false: the manager keeps calling a diagnostic that does not exist any more. -/
theorem C48_violated_destroyed : ((Manager.new.addInterval ⟨outFile false false, 2⟩).setTimeCounter.destroyInterval 0 : Manager ℚ).execute 0 0 =
    .ub := rfl

/-- the hypotheses of C48 are met -/
example : ((Manager.new.addInterval ⟨outFile false false, 2⟩).setTimeCounter : Manager ℚ).execute 0 0 =
    .ok [[.open "out0".toList, .write, .close]] [] ((Manager.new.addInterval ⟨outFile false false, 2⟩).setTimeCounter) := rfl

/-- the hypotheses of C48 are met: two diagnostics, a rank that is set after them -/
example : let calls : List (SetUp ℚ) := [.interval ⟨outFile false false, 2⟩, .timeCounter, .interval ⟨outFile false true, 3⟩, .rank 4, .master false]
    (∀ d ∈ intervalsOf calls, d.alive = true ∧ d.interval ≠ 0) ∧ deltasOf calls = [] ∧
    intervalsOf calls = [⟨outFile false false, 2⟩, ⟨outFile false true, 3⟩] ∧ masterOf calls = false ∧ rankOf calls = 4 := by
  refine ⟨by decide, rfl, rfl, rfl, rfl⟩

/-- C67 is false for a diagnostic with a single output: the master process and another process, both at time 1, have executed their
diagnostics at times 1/2 and 1. The next step of the master is 1/2, that of the other process is 1. -/
theorem C67_violated_single :
    ((history (exampleManager false true) [(0, 1 / 2), (1, 1)]).bind fun M => M.adjustDeltaT 1 1) = some (1 / 2) ∧
    ((history { exampleManager false true with master := false } [(0, 1 / 2), (1, 1)]).bind fun M => M.adjustDeltaT 1 1) = some 1 := by
  constructor <;> decide +kernel

/-- the hypotheses of C67 are met -/
example : ((history (exampleManager false false) [(0, 1 / 2), (1, 1)]).bind fun M => M.adjustDeltaT 1 1) = some (1 / 2) ∧
    ((history { exampleManager false false with master := false } [(0, 1 / 2), (1, 1)]).bind fun M => M.adjustDeltaT 1 1) =
      some (1 / 2) := by
  constructor <;> decide +kernel

/-- C66 is false: with the name `#p#t` process 1 at step 11 and process 11 at step 1 use the same file. -/
theorem C66_violated_adjacent : parsedFileName "#p#t".toList 1 11 = parsedFileName "#p#t".toList 11 1 := by decide +kernel

/-- C66 is false for diagnostics that append: all processes use the same file, even if the name contains `#p`. -/
theorem C66_violated_append : Placeholder 'p' "#p".toList ∧
    Interval.execute ⟨⟨"#p".toList, true, false, true⟩, 2⟩ true 0 0 = some [.open "#p".toList, .write] ∧
    Interval.execute ⟨⟨"#p".toList, true, false, true⟩, 2⟩ false 1 0 = some [.open "#p".toList, .write] := by
  refine ⟨?_, rfl, rfl⟩
  exact List.infix_rfl

/-- the hypotheses of C66 are met -/
example : parsedFileName "a#p_#t.dat".toList 3 25 = "a3_25.dat".toList := by decide +kernel

end Schnek.Props
