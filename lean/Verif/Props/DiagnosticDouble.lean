import Verif.Lemma.DiagnosticDouble
import Verif.Props.Diagnostic

/-!
# C122: diagnostics at physical times, in `double`
-/

namespace Schnek.Props

open Schnek Schnek.Spec Schnek.Binary64 Schnek.Diagnostic Schnek.Lemma.Binary64

/-- **C122** The time step from `adjustDeltaT` is positive and at most the one asked for. With it the simulation goes at most to the first number of
type `double` after the next output of any diagnostic, and not beyond the next output if that is at most twice the present time. If the time step
has been reduced, the time does increase. -/
theorem C122_adjust (l : List (Delta ℚ)) (hl : ∀ d ∈ l, IsFormat d.nextOutput) (now dt a : ℚ) (h0 : 0 ≤ now) (hn : IsFormat now) (hdt : 0 < dt)
    (h : adjustDouble l now dt = some a) :
    0 < a ∧ a ≤ dt ∧
    (∀ d ∈ l, now < d.nextOutput → (∀ z, IsFormat z → d.nextOutput < z → rnd (now + a) ≤ z) ∧
      (d.nextOutput ≤ 2 * now → rnd (now + a) ≤ d.nextOutput)) ∧
    (a < dt → now < rnd (now + a)) := by
  obtain ⟨h1, h2, h3⟩ := adjust_some h
  refine ⟨?_, h1, fun d hd hlt => ?_, fun hlt => ?_⟩
  · rcases h3 with rfl | ⟨d, -, hp, rfl⟩
    · exact hdt
    · exact hp
  · have h4 := h2 d hd (sub_pos_of_lt hn (hl d hd) hlt)
    refine ⟨fun z hz hnz => not_beyond h0 hlt (hl d hd) h4 hz hnz, fun h5 => ?_⟩
    rw [reach_exactly hn (hl d hd) h5 hlt] at h4
    have := rnd_mono (by linarith : now + a ≤ d.nextOutput)
    rwa [rnd_of_format (hl d hd)] at this
  · rcases h3 with rfl | ⟨d, hd, hp, rfl⟩
    · exact absurd hlt (lt_irrefl _)
    · refine goes_on h0 hn (hl d hd) ?_
      by_contra hc
      have := rnd_mono (sub_nonpos.mpr (not_lt.mp hc))
      rw [rnd_zero] at this
      linarith

/-- **C122** In a simulation that starts at or before the first output of a diagnostic, the outputs of the diagnostic are at the times
`delay + deltaTime + ... + deltaTime`, added up in `double`, or at the next number of type `double`; and there is one for all of these times that are
not after the end of the simulation. The simulation must not be longer than `2^49` times `deltaTime`. -/
theorem C122_times (master : Bool) (rank : ℤ) (l : List (Delta ℚ)) (now : ℚ) (dts : List ℚ) (log : List (ℚ × List (List Call)))
    (h : simulateDouble master rank l now dts = some log) (i : ℕ) (d : Delta ℚ) (hd : l[i]? = some d) (hdelta : 2 ^ (-1022 : ℤ) ≤ d.deltaTime)
    (hfmt : IsFormat d.nextOutput) (hnow : 0 ≤ now) (hnf : IsFormat now) (hstart : now ≤ d.nextOutput) (hs : d.single = true → master = true)
    (hdts : ∀ dt ∈ dts, 0 < dt ∧ IsFormat dt) (hlong : ∀ e ∈ log, e.1 ≤ 2 ^ 49 * d.deltaTime) :
    List.Forall₂ OnTime ((List.range (writeTimesDouble i log).length).map (outputTime d.nextOutput d.deltaTime)) (writeTimesDouble i log) ∧
    ∀ k : ℕ, k < (writeTimesDouble i log).length ↔ ∃ e ∈ log, outputTime d.nextOutput d.deltaTime k ≤ e.1 := by
  obtain ⟨h1, h2, -⟩ := sim_double i h hd hdelta hfmt (hnow.trans hstart) (fun z _ hz => hstart.trans hz.le) hnow hnf hs hdts hlong
  exact ⟨h1, h2⟩

/-- **C122** The time of output number `k` differs from `delay + k * deltaTime` by at most `(k + 2) / 2^52` of it. -/
theorem C122_accuracy (delay deltaTime : ℚ) (hf : IsFormat delay) (h0 : 0 ≤ delay) (hdelta : 2 ^ (-1022 : ℤ) ≤ deltaTime) (k : ℕ) (hk1 : 1 ≤ k)
    (hk : k ≤ 2 ^ 50) (t : ℚ) (ht : OnTime (outputTime delay deltaTime k) t) :
    |t - (delay + k * deltaTime)| ≤ (k + 2) / 2 ^ 52 * (delay + k * deltaTime) := by
  have h1 := outputTime_error h0 hdelta k hk
  have hst : 0 < deltaTime := (two_pos _).trans_le hdelta
  have hN : 2 ^ (-1022 : ℤ) ≤ outputTime delay deltaTime k := by
    obtain ⟨j, rfl⟩ : ∃ j, k = j + 1 := ⟨k - 1, by omega⟩
    have h2 := outputTime_le hf hst.le j
    have h3 := rnd_mono (by linarith : (2 : ℚ) ^ (-1022 : ℤ) ≤ outputTime delay deltaTime j + deltaTime)
    rwa [rnd_of_format (isFormat_two _ (by norm_num))] at h3
  obtain ⟨z, z1, z2, z3⟩ := next_value (outputTime_format hf k) hN
  have h2 := ht.2 z z1 z2
  have h3 := ht.1
  obtain ⟨E, hE⟩ : ∃ E, E = delay + k * deltaTime := ⟨_, rfl⟩
  obtain ⟨N, hNd⟩ : ∃ N, N = outputTime delay deltaTime k := ⟨_, rfl⟩
  have hE0 : 0 ≤ E := by rw [hE]; positivity
  rw [← hE, ← hNd] at h1
  rw [← hE]
  rw [← hNd] at h3 z3
  have hk2 : (k : ℚ) ≤ 2 ^ 50 := by exact_mod_cast hk
  have hk0 : (0 : ℚ) ≤ k := Nat.cast_nonneg k
  have hkE : (k : ℚ) / 2 ^ 52 * E ≤ E := by
    refine mul_le_of_le_one_left hE0 ?_
    rw [div_le_one (by norm_num)]
    linarith
  have e : ((k : ℚ) + 2) / 2 ^ 52 * E = k / 2 ^ 52 * E + 2 / 2 ^ 52 * E := by ring
  have hkE0 : 0 ≤ (k : ℚ) / 2 ^ 52 * E := by positivity
  rw [e]
  rw [abs_le] at h1 ⊢
  constructor <;> linarith [h1.1, h1.2]

/-- **C122** The `k`-th output goes to the file with number `k`, which is opened for it and closed; if the diagnostic appends and the simulation
starts at time 0, all outputs go to the same file, which is opened once. -/
theorem C122_files (master : Bool) (rank : ℤ) (l : List (Delta ℚ)) (now : ℚ) (dts : List ℚ) (log : List (ℚ × List (List Call)))
    (h : simulateDouble master rank l now dts = some log) (i : ℕ) (d : Delta ℚ) (hd : l[i]? = some d) (hdelta : 2 ^ (-1022 : ℤ) ≤ d.deltaTime)
    (hfmt : IsFormat d.nextOutput) (hnow : 0 ≤ now) (hnf : IsFormat now) (hstart : now ≤ d.nextOutput) (hs : d.single = true → master = true)
    (hdts : ∀ dt ∈ dts, 0 < dt ∧ IsFormat dt) (hlong : ∀ e ∈ log, e.1 ≤ 2 ^ 49 * d.deltaTime) (hcount : d.count = 0) (hne : log ≠ []) :
    (d.append = false → files none (log.flatMap (callsOfDouble i)) =
      some ((List.range (writeTimesDouble i log).length).map (fun k : ℕ => parsedFileName d.fname rank k), none)) ∧
    (d.append = true → now = 0 → files none (log.flatMap (callsOfDouble i)) =
      some (List.replicate (writeTimesDouble i log).length d.fname, some d.fname)) := by
  obtain ⟨-, -, h3⟩ := sim_double i h hd hdelta hfmt (hnow.trans hstart) (fun z _ hz => hstart.trans hz.le) hnow hnf hs hdts hlong
  rw [h3, hcount]
  constructor
  · intro ha
    rw [if_neg (by simp [ha]), List.nil_append]
    have := files_outputs d.toSettings ha rank 0 (List.range (writeTimesDouble i log).length)
    rw [this]
    simp
  · intro ha h0
    rw [if_pos ⟨h0.symm, ha, hne⟩]
    have := files_outputs_append d.toSettings ha rank 0 (List.range (writeTimesDouble i log).length)
    rw [List.singleton_append, files, this]
    congr 2
    rw [List.eq_replicate_iff]
    simp

/-- **C122** With a `deltaTime` of 0.1, output number 10 is before the time 1, although the number of type `double` nearest to `10 * deltaTime` is 1. -/
theorem C122_violated_sum : ∃ deltaTime, deltaTime = rnd (1 / 10) ∧ rnd (10 * deltaTime) = 1 ∧ outputTime 0 deltaTime 10 = 1 - 1 / 2 ^ 53 := by
  have hd : rnd (1 / 10) = 7205759403792794 / 2 ^ 56 := by
    rw [rnd_val 7205759403792794 (-56) (by norm_num)] <;> norm_num
  refine ⟨_, rfl, ?_, ?_⟩
  · rw [hd, rnd_even (2 ^ 52) (-52) (by norm_num) (by norm_num)] <;> norm_num
  · have s1 : outputTime 0 (rnd (1 / 10)) 1 = 7205759403792794 / 2 ^ 56 := by
      rw [outputTime, outputTime, zero_add, rnd_of_format (rnd_format _), hd]
    have s2 : outputTime 0 (rnd (1 / 10)) 2 = 7205759403792794 / 2 ^ 55 := by
      rw [outputTime, s1, hd, rnd_val 7205759403792794 (-55) (by norm_num)] <;> norm_num
    have s3 : outputTime 0 (rnd (1 / 10)) 3 = 5404319552844596 / 2 ^ 54 := by
      rw [outputTime, s2, hd, rnd_even 5404319552844596 (-54) (by norm_num) (by norm_num)] <;> norm_num
    have s4 : outputTime 0 (rnd (1 / 10)) 4 = 7205759403792794 / 2 ^ 54 := by
      rw [outputTime, s3, hd, rnd_even 7205759403792794 (-54) (by norm_num) (by norm_num)] <;> norm_num
    have s5 : outputTime 0 (rnd (1 / 10)) 5 = 4503599627370496 / 2 ^ 53 := by
      rw [outputTime, s4, hd, rnd_val 4503599627370496 (-53) (by norm_num)] <;> norm_num
    have s6 : outputTime 0 (rnd (1 / 10)) 6 = 5404319552844595 / 2 ^ 53 := by
      rw [outputTime, s5, hd, rnd_val 5404319552844595 (-53) (by norm_num)] <;> norm_num
    have s7 : outputTime 0 (rnd (1 / 10)) 7 = 6305039478318694 / 2 ^ 53 := by
      rw [outputTime, s6, hd, rnd_val 6305039478318694 (-53) (by norm_num)] <;> norm_num
    have s8 : outputTime 0 (rnd (1 / 10)) 8 = 7205759403792793 / 2 ^ 53 := by
      rw [outputTime, s7, hd, rnd_val 7205759403792793 (-53) (by norm_num)] <;> norm_num
    have s9 : outputTime 0 (rnd (1 / 10)) 9 = 8106479329266892 / 2 ^ 53 := by
      rw [outputTime, s8, hd, rnd_val 8106479329266892 (-53) (by norm_num)] <;> norm_num
    rw [outputTime, s9, hd, rnd_val 9007199254740991 (-53) (by norm_num)] <;> norm_num

/-- a diagnostic that is due at `next` -/
private def diagnosticAt (next deltaTime : ℚ) : Delta ℚ := ⟨⟨['a'], false, false, true⟩, deltaTime, next, 0⟩

/-- **C122** The simulation can step over an output: at the time `3 * 2^-53`, with the next output at `1 + 3 * 2^-52`, the step that `adjustDeltaT` gives
leads to `1 + 4 * 2^-52`. -/
theorem C122_violated_reach : ∃ a, adjustDouble [diagnosticAt (1 + 3 / 2 ^ 52) 1] (3 / 2 ^ 53) 2 = some a ∧
    rnd (3 / 2 ^ 53 + a) = 1 + 4 / 2 ^ 52 := by
  refine ⟨1 + 2 / 2 ^ 52, ?_, ?_⟩
  · have h : fl (1 + 3 / 2 ^ 52 - 3 / 2 ^ 53) = some (1 + 2 / 2 ^ 52) := by
      rw [fl_le (e := 1) (by norm_num) (by norm_num), rnd_even (2 ^ 52 + 2) (-52) (by norm_num) (by norm_num)] <;> norm_num
    simp only [adjustDouble, diagnosticAt, List.foldlM_cons, List.foldlM_nil, Binary64.sub, h]
    norm_num
  · rw [rnd_even (2 ^ 52 + 4) (-52) (by norm_num) (by norm_num)] <;> norm_num

/-- **C122** When the time is so large that `deltaTime` is lost, the time of the next output does not change, and there is output in each time step. -/
theorem C122_violated_long : ∃ d : Delta ℚ, d.nextOutput = 2 ^ 53 ∧ d.deltaTime = 1 ∧
    ∃ calls, Call.write ∈ calls ∧ d.executeDouble true 0 (2 ^ 53) = some (calls, { d with count := d.count + 1 }) := by
  refine ⟨diagnosticAt (2 ^ 53) 1, rfl, rfl, output ⟨['a'], false, false, true⟩ 0 0, write_mem_output' _ _ _, ?_⟩
  have h : fl (2 ^ 53 + 1) = some (2 ^ 53) := by
    rw [fl_le (e := 54) (by norm_num) (by norm_num), rnd_even (2 ^ 52) 1 (by norm_num) (by norm_num)] <;> norm_num
  have h0 : ¬ (0 : ℚ) = 2 ^ 53 := by norm_num
  simp [Delta.executeDouble, diagnosticAt, Binary64.add, h, h0]

/-- non-vacuity: a simulation of one step to the first output -/
example : simulateDouble true 0 [diagnosticAt 1 1] 0 [2, 2] =
    some [(0, [[]]), (1, [output ⟨['a'], false, false, true⟩ 0 0])] := by
  have hi : ∀ k : ℤ, |k| ≤ 2 ^ 40 → fl (k : ℚ) = some (k : ℚ) := fun k hk => by
    have := fl_dyadic (m := k) (e := 0) (hk.trans (by norm_num)) (by norm_num) (by norm_num)
    rwa [zpow_zero, mul_one] at this
  have h1 := hi 1 (by norm_num)
  have h2 := hi 2 (by norm_num)
  push_cast at h1 h2
  have h3 : ¬ (1 : ℚ) ≤ 0 := by norm_num
  have h4 : (1 : ℚ) + 1 = 2 := by norm_num
  have h5 : (2 : ℚ) - 1 = 1 := by norm_num
  simp [simulateDouble, diagnosticAt, Delta.executeDouble, adjustDouble, Binary64.add, Binary64.sub, h1, h2, h3, h4, h5]

end Schnek.Props
