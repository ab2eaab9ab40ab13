import Verif.Lemma.Crash
import Verif.Props.ParallelProgram

/-!
# C128: processes that stop
-/

namespace Schnek.Props

open Schnek Schnek.Spec Schnek.Mpi Schnek.Buffer Schnek.Lemma.MpiSchedule Schnek.Lemma.ParallelProgram Schnek.Lemma.Crash Function

variable {n : ℕ} {X T F : Type}

/-- **C128** The processes of a program as in C112 may stop at any time, some or all of them, and their messages that are under way may get lost. Nobody ever does anything
that is not allowed, and each process, whenever it is between two calls, has the data that it would have there if all processes did one call after
the other together, without any failure. -/
theorem C128_results_before_crash [AddCommMonoid T] [LinearOrder F] (S : Setup n) (hS : ∀ i, 1 ≤ S.dims i) (hδ : 1 ≤ S.delta)
    (hw : ∀ c i, S.delta ≤ ownWidth S c i)
    (hfit : ∀ c, S.delta * ∏ i, ((bounds S c).size.hi i - (bounds S c).size.lo i + 1) < 2 ^ 31) (hP : ∏ i, S.dims i < 2 ^ 31)
    (fresh : ℕ → List Byte) (hf : ∀ k, (fresh k).length = k) (rnd : ℚ → ℚ) (hr : SymmetricRounding rnd)
    (program : List (Call S X T F)) (M : Coord S → Memory X (Datum T F)) (h : Safe program fun c => (M c).grid) :
    ∃ x : ℕ → Coord S → X, (∀ j, Runs (program.take j) (fun c => (M c).grid) (x j)) ∧
      ∀ buffered dead C, CrashRun (programCode S fresh rnd program) buffered ∅ (Config.start M) dead C →
        ¬ C.Faulty (programCode S fresh rnd program) ∧
        ∀ c j, Made S fresh rnd program c j C → (C.proc c).mem.grid = x j c := by
  have hok : Ok S fresh rnd := ⟨hδ, hw, hfit, hP, hf, hr⟩
  have c₀ : Coord S := fun i => ⟨0, hS i⟩
  have hpart := fun j => program_together hok c₀ (program.take j) M (safe_take program _ j h)
  choose M' t d using hpart
  refine ⟨fun j c => (M' j c).grid, d, fun buffered dead C hC => ?_⟩
  obtain ⟨k, D, hD, hsh⟩ := crash_shadow hC
  obtain ⟨Mf, tf, -⟩ := program_together hok c₀ program M h
  obtain ⟨V, V0, -, hV⟩ := tf.rounds
  rw [← codeOf_program] at hD ⊢
  rw [← V0] at hD
  have hI := inv_steps hV hD inv_start
  refine ⟨fun hfa => not_faulty hV hI (shadow_faulty hsh hfa), fun c j hj => ?_⟩
  obtain ⟨Vj, Vj0, Vjl, hVj⟩ := (t j).rounds
  have hcut : program.flatMap (roundsOf S fresh rnd) =
      (program.take j).flatMap (roundsOf S fresh rnd) ++ (program.drop j).flatMap (roundsOf S fresh rnd) := by
    rw [← List.flatMap_append, List.take_append_drop]
  have hu : ∀ (l : List (Coord S → Instr (Coord S) X (Datum T F))),
      l = (program.take j).flatMap (roundsOf S fresh rnd) ++ (program.drop j).flatMap (roundsOf S fresh rnd) →
      (∀ k (hk : k < l.length), Round l[k] (V k) (V (k + 1))) →
      V ((program.take j).flatMap (roundsOf S fresh rnd)).length = Vj ((program.take j).flatMap (roundsOf S fresh rnd)).length := by
    intro l hl hV
    subst hl
    exact rounds_unique (V0.trans Vj0.symm) hV hVj _ le_rfl
  have hpc : (D.proc c).pc = ((program.take j).flatMap (roundsOf S fresh rnd)).length := by
    rw [← hsh.proc, hj.2, code_length]
  rw [hsh.proc, grid_at hV hI, hpc, hu _ hcut hV, Vjl]

/-- **C128** A process does not return from a call before those whose data it needs have begun the call: its neighbours in `exchange` and `accumulate`, the sender in
`exchangeData`, all processes in a reduction. So if one of them stops before, the process waits in this call, whatever else happens. -/
theorem C128_waits [AddCommMonoid T] [LinearOrder F] (S : Setup n) (hS : ∀ i, 1 ≤ S.dims i) (hδ : 1 ≤ S.delta)
    (hw : ∀ c i, S.delta ≤ ownWidth S c i)
    (hfit : ∀ c, S.delta * ∏ i, ((bounds S c).size.hi i - (bounds S c).size.lo i + 1) < 2 ^ 31) (hP : ∏ i, S.dims i < 2 ^ 31)
    (fresh : ℕ → List Byte) (hf : ∀ k, (fresh k).length = k) (rnd : ℚ → ℚ) (hr : SymmetricRounding rnd)
    (program : List (Call S X T F)) (M : Coord S → Memory X (Datum T F)) (h : Safe program fun c => (M c).grid)
    (buffered : Coord S → ℕ → Bool) (dead : Set (Coord S)) (C : Config (Coord S) X (Datum T F))
    (hC : CrashRun (programCode S fresh rnd program) buffered ∅ (Config.start M) dead C) (j : ℕ) (call : Call S X T F)
    (hj : program[j]? = some call) (c a : Coord S) (ha : Awaits call c a) (hc : Behind S fresh rnd program c (j + 1) C) :
    Begun S fresh rnd program a j C := by
  have hok : Ok S fresh rnd := ⟨hδ, hw, hfit, hP, hf, hr⟩
  obtain ⟨k, D, hD, hsh⟩ := crash_shadow hC
  obtain ⟨Mf, tf, -⟩ := program_together hok (fun i => ⟨0, hS i⟩) program M h
  obtain ⟨V, V0, -, hV⟩ := tf.rounds
  rw [← codeOf_program, ← V0] at hD
  have hI := inv_steps hV hD inv_start
  have hcoll := coll_steps hD
  obtain ⟨i, r, hi, hw⟩ := awaits_round fresh rnd call ha
  obtain ⟨hjl, hjc⟩ := List.getElem?_eq_some_iff.mp hj
  have hcut : program.flatMap (roundsOf S fresh rnd) =
      (program.take j).flatMap (roundsOf S fresh rnd) ++ (roundsOf S fresh rnd call ++ (program.drop (j + 1)).flatMap (roundsOf S fresh rnd)) := by
    conv_lhs => rw [← List.take_append_drop j program, List.drop_eq_getElem_cons hjl, hjc]
    rw [List.flatMap_append, List.flatMap_cons]
  have hil := (List.getElem?_eq_some_iff.mp hi).1
  have hat : (program.flatMap (roundsOf S fresh rnd))[((program.take j).flatMap (roundsOf S fresh rnd)).length + (i + 1)]? = some r := by
    rw [hcut, List.getElem?_append_right (Nat.le_add_right ..), Nat.add_sub_cancel_left, List.getElem?_append_left hil]
    exact hi
  have hend : ((program.take (j + 1)).flatMap (roundsOf S fresh rnd)).length =
      ((program.take j).flatMap (roundsOf S fresh rnd)).length + (roundsOf S fresh rnd call).length := by
    rw [List.take_succ, hj, List.flatMap_append, List.length_append]
    simp
  have hpc : ((program.take j).flatMap (roundsOf S fresh rnd)).length + (i + 1) < (D.proc c).pc := by
    have hc : _ ≤ _ := hc
    rw [code_length, hend, hsh.proc] at hc
    omega
  have hsent : ((program.take j).flatMap (roundsOf S fresh rnd)).length + (i + 1) < sent (D.proc a) := by
    rcases hw with hw | hw
    · exact hI.first a c _ (lt_of_lt_of_le hpc (Nat.le_add_right ..)) ((dst_of hat a).trans hw)
    · exact coll_first hV hI hcoll hpc ((col_of hat c).trans hw)
  show _ < _
  rw [code_length, hsh.proc]
  have := Bool.toNat_le (D.proc a).posted
  unfold sent at hsent
  omega

/-- **C128** The other processes are not told that a process has stopped: if it stops before a reduction, or before an exchange in which it is a neighbour, those who need its
data never get past this call, without any error. -/
theorem C128_hangs [AddCommMonoid T] [LinearOrder F] (S : Setup n) (hS : ∀ i, 1 ≤ S.dims i) (hδ : 1 ≤ S.delta)
    (hw : ∀ c i, S.delta ≤ ownWidth S c i)
    (hfit : ∀ c, S.delta * ∏ i, ((bounds S c).size.hi i - (bounds S c).size.lo i + 1) < 2 ^ 31) (hP : ∏ i, S.dims i < 2 ^ 31)
    (fresh : ℕ → List Byte) (hf : ∀ k, (fresh k).length = k) (rnd : ℚ → ℚ) (hr : SymmetricRounding rnd)
    (program : List (Call S X T F)) (M : Coord S → Memory X (Datum T F)) (h : Safe program fun c => (M c).grid)
    (buffered : Coord S → ℕ → Bool) (dead : Set (Coord S)) (C : Config (Coord S) X (Datum T F))
    (hC : CrashRun (programCode S fresh rnd program) buffered ∅ (Config.start M) dead C) (j : ℕ) (call : Call S X T F)
    (hj : program[j]? = some call) (c a : Coord S) (ha : Awaits call c a) (hdead : a ∈ dead) (hstop : ¬ Begun S fresh rnd program a j C)
    (dead' : Set (Coord S)) (C' : Config (Coord S) X (Datum T F))
    (hC' : CrashRun (programCode S fresh rnd program) buffered dead C dead' C') :
    ¬ Behind S fresh rnd program c (j + 1) C' := by
  intro hb
  have hbeg := C128_waits S hS hδ hw hfit hP fresh hf rnd hr program M h buffered dead' C' (crash_trans hC hC') j call hj c a ha hb
  refine hstop ?_
  unfold Begun at hbeg ⊢
  rw [(crash_stays hC').2 a hdead] at hbeg
  exact hbeg

/-- non-vacuity: six processes count to 5 and add up their values. The process with coordinates (0,0) stops at the begin; another one goes on, has the value 5 after the first
call, and waits in the second. The hypotheses about the program hold. -/
example : let S := exampleSetup
    let program : List (Call S ℤ ℤ ℚ) := [.compute fun _ x => x + 5, .reduceInt .sum id ⟨id, fun a _ => a, fun _ _ => rfl, fun _ => rfl, fun _ _ _ => rfl⟩]
    let a : Coord S := fun i => ⟨0, by fin_cases i <;> decide⟩
    let c : Coord S := fun i => ⟨1, by fin_cases i <;> decide⟩
    let M : Coord S → Memory ℤ (Datum ℤ ℚ) := fun _ => ⟨0, [], []⟩
    let fresh : ℕ → List Byte := fun k => List.replicate k 0
    (Safe program fun c => (M c).grid) ∧
    ∃ C, CrashRun (programCode S fresh id program) (fun _ _ => false) ∅ (Config.start M) {a} C ∧
      Made S fresh id program c 1 C ∧ (C.proc c).mem.grid = 5 ∧ ¬ Begun S fresh id program a 1 C ∧ Awaits (program.getLast (by simp [program])) c a := by
  intro S program a c M fresh
  have hne : a ≠ c := fun h => by
    have := congrArg (fun z => (z 0).1) h
    simp [a, c] at this
  refine ⟨⟨trivial, fun x' hx' => ⟨?_, fun _ _ => trivial⟩⟩, ?_⟩
  · have : ∀ c, x' c = 5 := fun c => hx' c
    simp only [Ready, id, this]
    decide
  · have h0 : CrashRun (programCode S fresh id program) (fun _ _ => false) ∅ (Config.start M) {a} (Config.start M) := by
      have := CrashRun.crash (code := programCode S fresh id program) (buffered := fun _ _ => false) (first := ∅) a
        (.start (begin := Config.start M))
      simpa using this
    have h1 : Step (programCode S fresh id program) (fun _ _ => false) (Config.start M)
        ((Config.start M).set c ⟨⟨5, [], []⟩, 1, false, false, 0⟩) :=
      Step.compute (C := Config.start M) (p := c) (m := ⟨5, [], []⟩) (f := fun m m' => m' = { m with grid := m.grid + 5 }) rfl rfl
    refine ⟨_, .step h0 h1 ?_, ?_, ?_, ?_, trivial⟩
    · rintro q rfl
      simp [Config.set, hne]
    · refine ⟨by simp [program], ?_⟩
      simp [Config.set, Config.start, programCode, program, Call.code]
    · simp [Config.set]
    · simp [Begun, Config.set, hne, Config.start, programCode, program, Call.code]

end Schnek.Props
