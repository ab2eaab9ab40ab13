import Verif.Spec.DiagnosticDouble
import Verif.Lemma.FieldDouble

/-!
# Lemmas about diagnostics at physical times, in `double`
-/

namespace Schnek.Lemma.Binary64

open Schnek Schnek.Spec Schnek.Binary64 Schnek.Diagnostic

/-- values at least as large as `y` are multiples of the spacing at `y` -/
theorem isFormat_multiple {z y : ℚ} (hz : IsFormat z) (hy : y ≠ 0) (h : |y| ≤ |z|) : ∃ k : ℤ, z = k * 2 ^ spacing y := by
  obtain ⟨m, e, hm, he, rfl⟩ := hz
  rcases le_or_gt (spacing y) e with h1 | h1
  · obtain ⟨d, hd⟩ := Int.le.dest h1
    refine ⟨m * 2 ^ d, ?_⟩
    rw [← hd, zpow_add₀ (by norm_num)]
    push_cast
    rw [zpow_natCast]
    ring
  · exfalso
    have h2 := spacing_le hy (by omega)
    have h3 : |(m : ℚ)| < 2 ^ 53 := by
      have : ((|m| : ℤ) : ℚ) < ((2 ^ 53 : ℤ) : ℚ) := by exact_mod_cast hm
      push_cast at this
      exact this
    have h4 : (2 : ℚ) ^ e ≤ 2 ^ (spacing y - 1) := zpow_le_zpow_right₀ (by norm_num) (by omega)
    have h5 : (2 : ℚ) ^ spacing y = 2 * 2 ^ (spacing y - 1) := by
      rw [← zpow_one_add₀ (by norm_num)]; congr 1; ring
    rw [abs_mul, abs_of_pos (two_pos e)] at h
    have h6 : |(m : ℚ)| * 2 ^ e < 2 ^ 52 * 2 ^ spacing y := by
      calc |(m : ℚ)| * 2 ^ e < 2 ^ 53 * 2 ^ e := mul_lt_mul_of_pos_right h3 (two_pos e)
        _ ≤ 2 ^ 53 * 2 ^ (spacing y - 1) := mul_le_mul_of_nonneg_left h4 (by norm_num)
        _ = _ := by rw [h5]; ring
    linarith

/-- the distance of a value to the next one -/
theorem spacing_gap {y z : ℚ} (hy : IsFormat y) (hz : IsFormat z) (h0 : 0 < y) (h : y < z) : (2 : ℚ) ^ spacing y ≤ z - y := by
  obtain ⟨k, hk⟩ := isFormat_multiple hz h0.ne' (by rw [abs_of_pos h0, abs_of_pos (h0.trans h)]; exact h.le)
  obtain ⟨j, hj⟩ := isFormat_multiple hy h0.ne' le_rfl
  have hp := two_pos (spacing y)
  have hlt : j < k := by
    have : (j : ℚ) * 2 ^ spacing y < k * 2 ^ spacing y := by rw [← hk, ← hj]; exact h
    exact_mod_cast lt_of_mul_lt_mul_right this hp.le
  have h1 : (1 : ℚ) ≤ k - j := by
    have : 1 ≤ k - j := by omega
    exact_mod_cast this
  calc (2 : ℚ) ^ spacing y = 1 * 2 ^ spacing y := (one_mul _).symm
    _ ≤ (k - j) * 2 ^ spacing y := mul_le_mul_of_nonneg_right h1 hp.le
    _ = k * 2 ^ spacing y - j * 2 ^ spacing y := by ring
    _ = z - y := by rw [← hk, ← hj]

theorem spacing_mono {x y : ℚ} (h0 : 0 < x) (h : x ≤ y) : spacing x ≤ spacing y := by
  unfold spacing
  rw [abs_of_pos h0, abs_of_pos (h0.trans_le h)]
  have := Int.log_mono_right (b := 2) h0 h
  omega

/-- the difference of two values is rounded to 0 only if they are equal -/
theorem sub_pos_of_lt {x y : ℚ} (hx : IsFormat x) (hy : IsFormat y) (h : x < y) : 0 < rnd (y - x) := by
  have hk : ∀ {z : ℚ}, IsFormat z → ∃ k : ℤ, z = k * 2 ^ (-1074 : ℤ) := by
    rintro z ⟨m, e, -, he, rfl⟩
    obtain ⟨d, hd⟩ := Int.le.dest he
    refine ⟨m * 2 ^ d, ?_⟩
    rw [← hd, zpow_add₀ (by norm_num)]
    push_cast
    rw [zpow_natCast]
    ring
  obtain ⟨j, rfl⟩ := hk hx
  obtain ⟨k, rfl⟩ := hk hy
  have hp := two_pos (-1074)
  have hlt : j < k := by exact_mod_cast lt_of_mul_lt_mul_right h hp.le
  have h1 : (1 : ℚ) ≤ k - j := by
    have : 1 ≤ k - j := by omega
    exact_mod_cast this
  have h2 : (2 : ℚ) ^ (-1074 : ℤ) ≤ k * 2 ^ (-1074 : ℤ) - j * 2 ^ (-1074 : ℤ) := by
    calc (2 : ℚ) ^ (-1074 : ℤ) = 1 * 2 ^ (-1074 : ℤ) := (one_mul _).symm
      _ ≤ (k - j) * 2 ^ (-1074 : ℤ) := mul_le_mul_of_nonneg_right h1 hp.le
      _ = _ := by rw [sub_mul]
  have h3 := rnd_mono h2
  rw [rnd_of_format (isFormat_two _ le_rfl)] at h3
  exact hp.trans_le h3

/-- going on by the rounded distance does not go further than the next value -/
theorem not_beyond {now next a z : ℚ} (h0 : 0 ≤ now) (hlt : now < next) (hf : IsFormat next) (ha : a ≤ rnd (next - now)) (hz : IsFormat z)
    (hnz : next < z) : rnd (now + a) ≤ z := by
  have hpos : 0 < next := h0.trans_lt hlt
  have hD : 0 < next - now := sub_pos.mpr hlt
  have h1 := rnd_half (next - now)
  have h2 : (2 : ℚ) ^ spacing (next - now) ≤ 2 ^ spacing next := zpow_le_zpow_right₀ (by norm_num) (spacing_mono hD (by linarith))
  have h3 := spacing_gap hf hz hpos hnz
  have hp := two_pos (spacing next)
  rw [abs_le] at h1
  have : now + a ≤ z := by linarith [h1.2]
  have := rnd_mono this
  rwa [rnd_of_format hz] at this

/-- nor does it go beyond the value, if that is at most twice as large -/
theorem reach_exactly {now next : ℚ} (hn : IsFormat now) (hf : IsFormat next) (h1 : next ≤ 2 * now) (h2 : now < next) :
    rnd (next - now) = next - now := by
  refine rnd_of_format ?_
  have h0 : 0 < now := by linarith
  obtain ⟨k, hk⟩ := isFormat_multiple hf h0.ne' (by rw [abs_of_pos h0, abs_of_pos (h0.trans h2)]; exact h2.le)
  obtain ⟨j, hj⟩ := isFormat_multiple hn h0.ne' le_rfl
  have hp := two_pos (spacing now)
  have hs := lt_spacing now
  rw [abs_of_pos h0] at hs
  have e : next - now = ((k - j : ℤ) : ℚ) * 2 ^ spacing now := by rw [Int.cast_sub, sub_mul, ← hk, ← hj]
  rw [e]
  refine isFormat_of_le ?_ (le_max_right _ _)
  have k1 : (0 : ℚ) ≤ ((k - j : ℤ) : ℚ) * 2 ^ spacing now := by rw [← e]; linarith
  have k2 : ((k - j : ℤ) : ℚ) * 2 ^ spacing now ≤ 2 ^ 53 * 2 ^ spacing now := by rw [← e]; linarith
  have k3 : (0 : ℚ) ≤ ((k - j : ℤ) : ℚ) := nonneg_of_mul_nonneg_left k1 hp
  have k4 : ((k - j : ℤ) : ℚ) ≤ 2 ^ 53 := le_of_mul_le_mul_right k2 hp
  have k5 : 0 ≤ k - j := by exact_mod_cast k3
  have k6 : k - j ≤ 2 ^ 53 := by exact_mod_cast k4
  rw [abs_of_nonneg k5]
  exact k6

/-- going on by the rounded distance does go on -/
theorem goes_on {now next : ℚ} (h0 : 0 ≤ now) (hn : IsFormat now) (hf : IsFormat next) (h : now < next) : now < rnd (now + rnd (next - now)) := by
  have hr := sub_pos_of_lt hn hf h
  rcases eq_or_lt_of_le h0 with rfl | hpos
  · rw [zero_add, rnd_of_format (rnd_format _)]
    exact hr
  · have hg := spacing_gap hn hf hpos h
    have hp := two_pos (spacing now)
    have h1 : (2 : ℚ) ^ spacing now ≤ rnd (next - now) := by
      have := rnd_mono hg
      rwa [rnd_of_format (isFormat_two (spacing now) (le_max_right _ _))] at this
    obtain ⟨j, hj⟩ := isFormat_multiple hn hpos.ne' le_rfl
    have hs := lt_spacing now
    rw [abs_of_pos hpos] at hs
    have hj53 : j < 2 ^ 53 := by
      have : (j : ℚ) * 2 ^ spacing now < 2 ^ 53 * 2 ^ spacing now := by rw [← hj]; exact hs
      exact_mod_cast lt_of_mul_lt_mul_right this hp.le
    have hj0 : 0 < j := by
      have : 0 < (j : ℚ) * 2 ^ spacing now := by rw [← hj]; exact hpos
      exact_mod_cast pos_of_mul_pos_left this hp.le
    have e : now + 2 ^ spacing now = ((j + 1 : ℤ) : ℚ) * 2 ^ spacing now := by
      rw [Int.cast_add, add_mul, Int.cast_one, one_mul, ← hj]
    have hfm : IsFormat (now + 2 ^ spacing now) := by
      rw [e]
      exact isFormat_of_le (by rw [abs_of_pos (by omega)]; omega) (le_max_right _ _)
    have h2 := rnd_mono (add_le_add_right h1 now)
    rw [rnd_of_format hfm] at h2
    linarith

/-- the next output is not among the next values -/
theorem advance {next step : ℚ} (h0 : 0 ≤ next) (hf : IsFormat next) (hs : 2 ^ (-1022 : ℤ) ≤ step) (hl : next ≤ 2 ^ 49 * step) :
    ∃ z, IsFormat z ∧ next < z ∧ z < rnd (next + step) := by
  have hs0 : 0 < step := (two_pos _).trans_le hs
  have hb : (2 : ℚ) ^ (-1074 : ℤ) ≤ step / 8 := by
    rw [le_div_iff₀ (by norm_num)]
    refine le_trans ?_ hs
    calc (2 : ℚ) ^ (-1074 : ℤ) * 8 = 2 ^ (-1074 : ℤ) * 2 ^ (3 : ℤ) := by norm_num only
      _ = 2 ^ (-1071 : ℤ) := by rw [← zpow_add₀ (by norm_num)]; rfl
      _ ≤ _ := zpow_le_zpow_right₀ (by norm_num) (by norm_num)
  have hr : |rnd (next + step) - (next + step)| ≤ (next + step) / 2 ^ 53 := by
    have := rnd_rel (x := next + step) (by rw [abs_of_nonneg (by linarith)]; linarith)
    rwa [abs_of_nonneg (by linarith : (0 : ℚ) ≤ next + step)] at this
  rw [abs_le] at hr
  have hr1 := hr.1
  have key : ∀ g, g ≤ step / 8 → next + g < rnd (next + step) := by
    intro g hg
    have : (next + step) / 2 ^ 53 ≤ step / 8 := by
      rw [div_le_iff₀ (by norm_num)]
      linarith
    linarith
  rcases eq_or_lt_of_le h0 with rfl | hpos
  · refine ⟨2 ^ (-1074 : ℤ), isFormat_two _ le_rfl, two_pos _, ?_⟩
    have := key _ hb
    rwa [zero_add] at this
  · obtain ⟨j, hj⟩ := isFormat_multiple hf hpos.ne' le_rfl
    have hp := two_pos (spacing next)
    have hls := lt_spacing next
    rw [abs_of_pos hpos] at hls
    have hj53 : j < 2 ^ 53 := by
      have : (j : ℚ) * 2 ^ spacing next < 2 ^ 53 * 2 ^ spacing next := by rw [← hj]; exact hls
      exact_mod_cast lt_of_mul_lt_mul_right this hp.le
    have hj0 : 0 < j := by
      have : 0 < (j : ℚ) * 2 ^ spacing next := by rw [← hj]; exact hpos
      exact_mod_cast pos_of_mul_pos_left this hp.le
    have e : next + 2 ^ spacing next = ((j + 1 : ℤ) : ℚ) * 2 ^ spacing next := by
      rw [Int.cast_add, add_mul, Int.cast_one, one_mul, ← hj]
    refine ⟨next + 2 ^ spacing next, ?_, by linarith, key _ ?_⟩
    · rw [e]
      exact isFormat_of_le (by rw [abs_of_pos (by omega)]; omega) (le_max_right _ _)
    · by_cases hsp : spacing next = -1074
      · rw [hsp]; exact hb
      · have := spacing_le hpos.ne' hsp
        rw [abs_of_pos hpos] at this
        linarith

theorem roundInt_even {x : ℚ} {m : ℤ} (hm : m % 2 = 0) (h : |x - m| ≤ 1 / 2) : roundInt x = m := by
  rcases lt_or_eq_of_le h with h | h
  · exact roundInt_eq h
  have hpar : ∀ k : ℤ, ⌊x⌋ = k → x - k = 1 / 2 → roundInt x = if k % 2 = 0 then k else k + 1 := by
    rintro k rfl hk
    unfold roundInt
    rw [hk, if_neg (lt_irrefl _), if_neg (lt_irrefl _)]
  rcases abs_cases (x - m) with ⟨h1, -⟩ | ⟨h1, -⟩
  · have hf : ⌊x⌋ = m := by rw [Int.floor_eq_iff]; constructor <;> linarith
    rw [hpar m hf (by linarith), if_pos hm]
  · have hf : ⌊x⌋ = m - 1 := by rw [Int.floor_eq_iff]; push_cast; constructor <;> linarith
    rw [hpar (m - 1) hf (by push_cast; linarith), if_neg (by omega)]
    omega

theorem rnd_even {x : ℚ} (m e : ℤ) (he : -1074 ≤ e) (hm : m % 2 = 0) (h1 : 2 ^ 52 * 2 ^ e ≤ |x|) (h2 : |x| < 2 ^ 53 * 2 ^ e)
    (h3 : |x - m * 2 ^ e| ≤ 2 ^ e / 2) : rnd x = m * 2 ^ e := by
  have hp := two_pos e
  rw [rnd, spacing_eq he h1 h2, roundInt_even hm]
  have : x / 2 ^ e - m = (x - m * 2 ^ e) / 2 ^ e := by field_simp
  rw [this, abs_div, abs_of_pos hp, div_le_iff₀ hp]
  linarith

/-- how far the next value is -/
theorem next_value {y : ℚ} (hy : IsFormat y) (h : 2 ^ (-1022 : ℤ) ≤ y) : ∃ z, IsFormat z ∧ y < z ∧ z ≤ y + y / 2 ^ 52 := by
  have hpos : 0 < y := (two_pos _).trans_le h
  obtain ⟨j, hj⟩ := isFormat_multiple hy hpos.ne' le_rfl
  have hp := two_pos (spacing y)
  have hls := lt_spacing y
  rw [abs_of_pos hpos] at hls
  have hj53 : j < 2 ^ 53 := by
    have : (j : ℚ) * 2 ^ spacing y < 2 ^ 53 * 2 ^ spacing y := by rw [← hj]; exact hls
    exact_mod_cast lt_of_mul_lt_mul_right this hp.le
  have hj0 : 0 < j := by
    have : 0 < (j : ℚ) * 2 ^ spacing y := by rw [← hj]; exact hpos
    exact_mod_cast pos_of_mul_pos_left this hp.le
  have e : y + 2 ^ spacing y = ((j + 1 : ℤ) : ℚ) * 2 ^ spacing y := by
    rw [Int.cast_add, add_mul, Int.cast_one, one_mul, ← hj]
  refine ⟨y + 2 ^ spacing y, ?_, by linarith, ?_⟩
  · rw [e]
    exact isFormat_of_le (by rw [abs_of_pos (by omega)]; omega) (le_max_right _ _)
  · have : (2 : ℚ) ^ spacing y ≤ y / 2 ^ 52 := by
      rw [le_div_iff₀ (by norm_num)]
      by_cases hsp : spacing y = -1074
      · rw [hsp]
        refine le_trans (le_of_eq ?_) h
        rw [show (-1022 : ℤ) = -1074 + 52 by norm_num, zpow_add₀ (by norm_num)]
        rfl
      · have := spacing_le hpos.ne' hsp
        rw [abs_of_pos hpos] at this
        linarith
    linarith

/-! ## simulations -/

theorem bind_some_iff {α β : Type} {x : Option α} {f : α → Option β} {b : β} (h : (do let a ← x; f a) = some b) :
    ∃ a, x = some a ∧ f a = some b := Option.bind_eq_some_iff.mp h

theorem adjust_some {l : List (Delta ℚ)} {now : ℚ} : ∀ {dt a : ℚ}, adjustDouble l now dt = some a →
    a ≤ dt ∧ (∀ d ∈ l, 0 < rnd (d.nextOutput - now) → a ≤ rnd (d.nextOutput - now)) ∧
    (a = dt ∨ ∃ d ∈ l, 0 < rnd (d.nextOutput - now) ∧ a = rnd (d.nextOutput - now)) := by
  induction l with
  | nil =>
    intro dt a h
    have : dt = a := Option.some.inj h
    exact ⟨this.ge, by simp, Or.inl this.symm⟩
  | cons d l ih =>
    intro dt a h
    unfold adjustDouble at h
    rw [List.foldlM_cons] at h
    obtain ⟨b, h1, h2⟩ := Option.bind_eq_some_iff.mp h
    obtain ⟨left, h3, h4⟩ := Option.bind_eq_some_iff.mp h1
    have h5 := fl_eq h3
    subst h5
    have h6 := Option.some.inj h4
    obtain ⟨i1, i2, i3⟩ := ih h2
    subst h6
    by_cases hc : 0 < rnd (d.nextOutput - now)
    · rw [if_pos hc] at i1 i3
      refine ⟨i1.trans (min_le_left _ _), ?_, ?_⟩
      · intro d' hd' hp
        rcases List.mem_cons.mp hd' with rfl | hd'
        · exact i1.trans (min_le_right _ _)
        · exact i2 d' hd' hp
      · rcases i3 with i3 | ⟨d', hd', i3⟩
        · rcases min_choice dt (rnd (d.nextOutput - now)) with hm | hm
          · exact Or.inl (i3.trans hm)
          · exact Or.inr ⟨d, List.mem_cons_self, hc, i3.trans hm⟩
        · exact Or.inr ⟨d', List.mem_cons_of_mem _ hd', i3⟩
    · rw [if_neg hc] at i1 i3
      refine ⟨i1, ?_, ?_⟩
      · intro d' hd' hp
        rcases List.mem_cons.mp hd' with rfl | hd'
        · exact absurd hp hc
        · exact i2 d' hd' hp
      · rcases i3 with i3 | ⟨d', hd', i3⟩
        · exact Or.inl i3
        · exact Or.inr ⟨d', List.mem_cons_of_mem _ hd', i3⟩

theorem simulateDouble_cons {master : Bool} {rank : ℤ} {l : List (Delta ℚ)} {now dt : ℚ} {dts : List ℚ} {log : List (ℚ × List (List Call))}
    (h : simulateDouble master rank l now (dt :: dts) = some log) :
    ∃ r a log', l.mapM (fun d => d.executeDouble master rank now) = some r ∧ adjustDouble (r.map Prod.snd) now dt = some a ∧
      simulateDouble master rank (r.map Prod.snd) (rnd (now + a)) dts = some log' ∧ log = (now, r.map Prod.fst) :: log' := by
  unfold simulateDouble at h
  obtain ⟨r, h1, h2⟩ := bind_some_iff h
  obtain ⟨a, h3, h4⟩ := bind_some_iff h2
  obtain ⟨now', h5, h6⟩ := bind_some_iff h4
  obtain ⟨log', h7, h8⟩ := bind_some_iff h6
  have := fl_eq h5
  subst this
  exact ⟨r, a, log', h1, h3, h7, (Option.some.inj h8).symm⟩

theorem mapM_getElem {α β : Type} {f : α → Option β} {l : List α} {r : List β} (h : l.mapM f = some r) (i : ℕ) {x : α} (hx : l[i]? = some x) :
    ∃ y, f x = some y ∧ r[i]? = some y := by
  induction l generalizing r i with
  | nil => simp at hx
  | cons a l ih =>
    rw [List.mapM_cons] at h
    obtain ⟨b, h1, h2⟩ := bind_some_iff h
    obtain ⟨r', h3, h4⟩ := bind_some_iff h2
    have := Option.some.inj h4
    subst this
    cases i with
    | zero =>
      simp only [List.getElem?_cons_zero, Option.some.injEq] at hx
      subst hx
      exact ⟨b, h1, rfl⟩
    | succ i => exact ih h3 i hx

theorem outputTime_shift (s step : ℚ) (k : ℕ) : outputTime (rnd (s + step)) step k = outputTime s step (k + 1) := by
  induction k with
  | zero => rfl
  | succ k ih => rw [outputTime, ih]; rfl

theorem outputTime_format {s step : ℚ} (hs : IsFormat s) (k : ℕ) : IsFormat (outputTime s step k) := by
  cases k with
  | zero => exact hs
  | succ k => exact rnd_format _

theorem outputTime_le {s step : ℚ} (hs : IsFormat s) (h : 0 ≤ step) (k : ℕ) : s ≤ outputTime s step k := by
  induction k with
  | zero => exact le_rfl
  | succ k ih =>
    refine ih.trans ?_
    have := rnd_mono (le_add_of_nonneg_right (a := outputTime s step k) h)
    rwa [rnd_of_format (outputTime_format hs k)] at this

theorem write_mem_output' (s : Settings) (rank t : ℤ) : Call.write ∈ output s rank t := by
  simp [output]

theorem sim_double (i : ℕ) {master : Bool} {rank : ℤ} {dts : List ℚ} : ∀ {l : List (Delta ℚ)} {now : ℚ} {log : List (ℚ × List (List Call))} {d : Delta ℚ},
    simulateDouble master rank l now dts = some log → l[i]? = some d → 2 ^ (-1022 : ℤ) ≤ d.deltaTime → IsFormat d.nextOutput →
    0 ≤ d.nextOutput → (∀ z, IsFormat z → d.nextOutput < z → now ≤ z) → 0 ≤ now → IsFormat now →
    (d.single = true → master = true) → (∀ dt ∈ dts, 0 < dt ∧ IsFormat dt) → (∀ e ∈ log, e.1 ≤ 2 ^ 49 * d.deltaTime) →
    List.Forall₂ OnTime ((List.range (writeTimesDouble i log).length).map (outputTime d.nextOutput d.deltaTime)) (writeTimesDouble i log) ∧
      (∀ k : ℕ, k < (writeTimesDouble i log).length ↔ ∃ e ∈ log, outputTime d.nextOutput d.deltaTime k ≤ e.1) ∧
      log.flatMap (callsOfDouble i) = (if 0 = now ∧ d.append = true ∧ log ≠ [] then [.open d.fname] else []) ++
        (List.range (writeTimesDouble i log).length).flatMap fun k => output d.toSettings rank (d.count + k : ℕ) := by
  induction dts with
  | nil =>
    intro l now log d h _ _ _ _ _ _ _ _ _ _
    have : log = [] := by simpa [simulateDouble] using h.symm
    subst this
    exact ⟨by simp [writeTimesDouble], by simp [writeTimesDouble], by simp [writeTimesDouble]⟩
  | cons dt dts ih =>
    intro l now log d h hd hstep hfmt hn0 hinv hnow hnf hs hpos hlong
    obtain ⟨r, a, log', h1, h2, h3, rfl⟩ := simulateDouble_cons h
    obtain ⟨y, e5, e6⟩ := mapM_getElem h1 i hd
    have hy2 : (r.map Prod.snd)[i]? = some y.2 := by rw [List.getElem?_map, e6]; rfl
    have hy1 : (r.map Prod.fst)[i]? = some y.1 := by rw [List.getElem?_map, e6]; rfl
    have hmem := List.mem_of_getElem? hy2
    have hpos' : ∀ x ∈ dts, 0 < x ∧ IsFormat x := fun x hx => hpos x (by simp [hx])
    obtain ⟨a1, a2, a3⟩ := adjust_some h2
    have ha : 0 < a ∧ IsFormat a := by
      rcases a3 with rfl | ⟨d', -, hp, rfl⟩
      · exact hpos a (by simp)
      · exact ⟨hp, rnd_format _⟩
    have hnow' : 0 < rnd (now + a) := by
      have := rnd_mono (le_add_of_nonneg_left (a := a) hnow)
      rw [rnd_of_format ha.2] at this
      exact ha.1.trans_le this
    have hlong' : ∀ e ∈ log', e.1 ≤ 2 ^ 49 * d.deltaTime := fun e he => hlong e (by simp [he])
    have hsm : (d.single && !master) = false := by
      cases hds : d.single
      · rfl
      · rw [hs hds]; rfl
    have hst0 : 0 ≤ d.deltaTime := ((two_pos _).trans_le hstep).le
    unfold Delta.executeDouble at e5
    rw [hsm] at e5
    simp only [Bool.false_eq_true, if_false] at e5
    have hcalls : callsOfDouble i (now, r.map Prod.fst) = y.1 := by
      unfold callsOfDouble
      rw [hy1]; rfl
    -- the time after this step
    have hgo : ∀ next, IsFormat next → now < next → y.2.nextOutput = next → ∀ z, IsFormat z → next < z → rnd (now + a) ≤ z := by
      intro next hf hlt he z hz hnz
      have hleft := a2 _ hmem
      rw [he] at hleft
      exact not_beyond hnow hlt hf (hleft (sub_pos_of_lt hnf hf hlt)) hz hnz
    by_cases hdue : d.nextOutput ≤ now
    · rw [if_pos hdue] at e5
      obtain ⟨next, n1, n2⟩ := Option.bind_eq_some_iff.mp e5
      have n3 := fl_eq n1
      subst n3
      have n4 := Option.some.inj n2
      obtain ⟨z, z1, z2, z3⟩ := advance hn0 hfmt hstep (hdue.trans (hlong _ List.mem_cons_self))
      have hlt : now < rnd (d.nextOutput + d.deltaTime) := (hinv z z1 z2).trans_lt z3
      have hy : y.2 = { d with nextOutput := rnd (d.nextOutput + d.deltaTime), count := d.count + 1 } := by rw [← n4]
      obtain ⟨i1, i2, i3⟩ := ih h3 hy2 (by rw [hy]; exact hstep) (by rw [hy]; exact rnd_format _) (by rw [hy]; exact hnow.trans hlt.le)
        (by rw [hy]; exact hgo _ (rnd_format _) hlt (by rw [hy])) hnow'.le (rnd_format _) (by rw [hy]; exact hs) hpos' (by rw [hy]; exact hlong')
      rw [hy] at i1 i2 i3
      simp only [outputTime_shift] at i1 i2
      have hw : writeTimesDouble i ((now, r.map Prod.fst) :: log') = now :: writeTimesDouble i log' := by
        unfold writeTimesDouble
        rw [List.filter_cons_of_pos, List.map_cons]
        rw [decide_eq_true_iff, hcalls, ← n4]
        exact List.mem_append_right _ (write_mem_output' _ _ _)
      rw [hw]
      refine ⟨?_, ?_, ?_⟩
      · rw [List.length_cons, List.range_succ_eq_map, List.map_cons, List.map_map]
        refine List.Forall₂.cons ⟨hdue, hinv⟩ ?_
        have : outputTime d.nextOutput d.deltaTime ∘ Nat.succ = outputTime (rnd (d.nextOutput + d.deltaTime)) d.deltaTime :=
          funext fun k => (outputTime_shift _ _ k).symm
        rw [this]
        exact i1
      · intro k
        cases k with
        | zero =>
          simp only [List.length_cons, Nat.zero_lt_succ, true_iff]
          exact ⟨_, List.mem_cons_self, hdue⟩
        | succ k =>
          rw [List.length_cons, Nat.succ_lt_succ_iff, i2 k]
          constructor
          · rintro ⟨e, he, hle⟩
            exact ⟨e, List.mem_cons_of_mem _ he, hle⟩
          · rintro ⟨e, he, hle⟩
            rcases List.mem_cons.mp he with rfl | he
            · exfalso
              rw [← outputTime_shift] at hle
              have := outputTime_le (rnd_format (d.nextOutput + d.deltaTime)) hst0 k
              simp only at hle
              linarith
            · exact ⟨e, he, hle⟩
      · rw [List.flatMap_cons, i3, hcalls, ← n4, if_neg (show ¬ (0 = rnd (now + a) ∧ _) from fun hh => by linarith [hh.1]), List.length_cons,
          List.range_succ_eq_map, List.flatMap_cons, List.flatMap_map]
        simp only [ne_eq, reduceCtorEq, not_false_eq_true, and_true, List.nil_append, List.append_assoc, Nat.add_zero]
        congr 3
        funext k
        congr 2
        push_cast
        omega
    · rw [if_neg hdue] at e5
      have n4 := Option.some.inj e5
      have hlt := not_le.mp hdue
      have hy : y.2 = d := by rw [← n4]
      obtain ⟨i1, i2, i3⟩ := ih h3 hy2 (by rw [hy]; exact hstep) (by rw [hy]; exact hfmt) (by rw [hy]; exact hn0)
        (by rw [hy]; exact hgo _ hfmt hlt (by rw [hy])) hnow'.le (rnd_format _) (by rw [hy]; exact hs) hpos' (by rw [hy]; exact hlong')
      rw [hy] at i1 i2 i3
      have hw : writeTimesDouble i ((now, r.map Prod.fst) :: log') = writeTimesDouble i log' := by
        unfold writeTimesDouble
        rw [List.filter_cons_of_neg]
        rw [decide_eq_true_iff, hcalls, ← n4]
        simp only
        split <;> simp
      rw [hw]
      refine ⟨i1, ?_, ?_⟩
      · intro k
        rw [i2 k]
        constructor
        · rintro ⟨e, he, hle⟩
          exact ⟨e, List.mem_cons_of_mem _ he, hle⟩
        · rintro ⟨e, he, hle⟩
          rcases List.mem_cons.mp he with rfl | he
          · have := outputTime_le hfmt hst0 k
            simp only at hle
            linarith
          · exact ⟨e, he, hle⟩
      · rw [List.flatMap_cons, i3, hcalls, ← n4, if_neg (show ¬ (0 = rnd (now + a) ∧ _) from fun hh => by linarith [hh.1])]
        simp only [ne_eq, reduceCtorEq, not_false_eq_true, and_true, List.nil_append]

/-- the sum in `double` and the exact one -/
theorem outputTime_error {s step : ℚ} (hs : 0 ≤ s) (hstep : 2 ^ (-1022 : ℤ) ≤ step) (k : ℕ) (hk : k ≤ 2 ^ 50) :
    |outputTime s step k - (s + k * step)| ≤ k / 2 ^ 52 * (s + k * step) := by
  have hst : 0 < step := (two_pos _).trans_le hstep
  induction k with
  | zero => simp [outputTime]
  | succ k ih =>
    have ih := ih (by omega)
    obtain ⟨N, hN⟩ : ∃ N, N = outputTime s step k := ⟨_, rfl⟩
    rw [outputTime, ← hN]
    rw [← hN] at ih
    have hk0 : (0 : ℚ) ≤ k := Nat.cast_nonneg k
    have hk1 : (k : ℚ) ≤ 2 ^ 50 := by
      have : k ≤ 2 ^ 50 := by omega
      exact_mod_cast this
    have hE : 0 ≤ s + k * step := by positivity
    have hq : (k : ℚ) / 2 ^ 52 * (s + k * step) ≤ s + k * step := by
      refine mul_le_of_le_one_left hE ?_
      rw [div_le_one (by norm_num)]
      linarith
    have hN0 : 0 ≤ N := by
      rw [abs_le] at ih
      linarith [ih.1]
    have hr : |rnd (N + step) - (N + step)| ≤ (N + step) / 2 ^ 53 := by
      have := rnd_rel (x := N + step) (by rw [abs_of_nonneg (by linarith)]; linarith)
      rwa [abs_of_nonneg (by linarith : (0 : ℚ) ≤ N + step)] at this
    push_cast
    have e : s + (k + 1) * step = s + k * step + step := by ring
    rw [e]
    obtain ⟨E, hEd⟩ : ∃ E, E = s + k * step := ⟨_, rfl⟩
    rw [← hEd] at ih hE hq ⊢
    obtain ⟨c, hc⟩ : ∃ c : ℚ, c = k / 2 ^ 52 := ⟨_, rfl⟩
    have hc0 : 0 ≤ c := by rw [hc]; positivity
    have hc1 : c ≤ 1 := by rw [hc, div_le_one (by norm_num)]; linarith
    have hc2 : ((k : ℚ) + 1) / 2 ^ 52 = c + 1 / 2 ^ 52 := by rw [hc]; ring
    rw [← hc] at ih
    rw [hc2]
    have k1 : (c + 1 / 2 ^ 52) * (E + step) = c * E + c * step + (E + step) / 2 ^ 52 := by ring
    rw [k1]
    have k2 : 0 ≤ c * step := by positivity
    have k3 : c * E ≤ E := mul_le_of_le_one_left hE hc1
    have hEs : 0 ≤ E + step := by linarith
    rw [abs_le] at ih hr ⊢
    constructor <;> linarith [ih.1, ih.2, hr.1, hr.2]

end Schnek.Lemma.Binary64
