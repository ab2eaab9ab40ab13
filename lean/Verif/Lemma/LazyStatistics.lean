import Verif.Model.LazyStatistics
import Mathlib.Data.Real.Sqrt
import Mathlib.Tactic.Linarith
import Mathlib.Tactic.NormNum
import Mathlib.Tactic.Positivity
import Mathlib.Tactic.Ring
import Mathlib.Tactic.FieldSimp
import Mathlib.Algebra.Order.Archimedean.Basic

/-! # Lemmas on the statistics of the lazy allocation policy -/

namespace Schnek.Lemma.LazyStats

open Schnek.LazyStats

theorem trunc_abs_le (x : ℚ) : |(trunc x : ℚ)| ≤ |x| := by
  unfold trunc
  by_cases h : 0 ≤ x
  · rw [if_pos h, abs_of_nonneg h, abs_of_nonneg]
    · exact Int.floor_le x
    · exact_mod_cast Int.floor_nonneg.mpr h
  · rw [if_neg h]
    have h' : x < 0 := not_le.mp h
    rw [abs_of_neg h', abs_of_nonpos]
    · have := Int.le_ceil x
      linarith
    · exact_mod_cast Int.ceil_le.mpr (by simpa using h'.le)

theorem abs_lt_trunc (x : ℚ) : |x| < |(trunc x : ℚ)| + 1 := by
  unfold trunc
  by_cases h : 0 ≤ x
  · rw [if_pos h, abs_of_nonneg h]
    have h1 := Int.lt_floor_add_one x
    have h2 := le_abs_self ((⌊x⌋ : ℤ) : ℚ)
    linarith
  · rw [if_neg h, abs_of_neg (not_le.mp h)]
    have h1 := Int.ceil_lt_add_one x
    have h2 := neg_le_abs ((⌈x⌉ : ℤ) : ℚ)
    linarith

theorem trunc_zero {x : ℚ} (h : |x| < 1) : trunc x = 0 := by
  have h1 := trunc_abs_le x
  have h2 : |(trunc x : ℚ)| < 1 := lt_of_le_of_lt h1 h
  have h3 : |trunc x| < 1 := by exact_mod_cast h2
  exact Int.abs_lt_one_iff.mp h3

theorem gap_eq (s : Stats) (n : ℕ) : (n : ℚ) - nextAvg s n = 19 / 20 * (n - s.avgSize) := by
  unfold nextAvg r; ring

theorem gap_move (s : Stats) (n : ℕ) : nextAvg s n - s.avgSize = 1 / 19 * (n - nextAvg s n) := by
  unfold nextAvg r; ring

theorem var_nonneg {s : Stats} (h : 0 ≤ s.avgVar) (n : ℕ) : 0 ≤ nextVar s n := by
  unfold nextVar r
  nlinarith [mul_self_nonneg ((diff s n : ℚ))]

theorem var_decay (s : Stats) (n : ℕ) : 19 / 20 * s.avgVar ≤ nextVar s n := by
  unfold nextVar r
  nlinarith [mul_self_nonneg ((diff s n : ℚ))]

theorem var_diff {s : Stats} (h : 0 ≤ s.avgVar) (n : ℕ) : (diff s n : ℚ) ^ 2 ≤ 20 * nextVar s n := by
  unfold nextVar r
  nlinarith

theorem foldl_var {s : Stats} (h : 0 ≤ s.avgVar) (l : List ℕ) : 0 ≤ (l.foldl resize s).avgVar := by
  induction l generalizing s with
  | nil => exact h
  | cons a l ih => exact ih (var_nonneg h a)

theorem run_var (l : List ℕ) : 0 ≤ (run l).avgVar := foldl_var (le_refl _) l

theorem run_append (l m : List ℕ) : run (l ++ m) = m.foldl resize (run l) := by
  unfold run; rw [List.foldl_append]

theorem run_snoc (l : List ℕ) (n : ℕ) : run (l ++ [n]) = resize (run l) n := by
  rw [run_append]; rfl

/-! ### The square roots -/

theorem shrink_iff {v : ℚ} (hv : 0 ≤ v) (n b : ℕ) :
    shrink n b v = true ↔ (n : ℝ) + 32 * √(v : ℝ) < b ∧ 100 < b := by
  have hvr : (0 : ℝ) ≤ v := by exact_mod_cast hv
  have hs := Real.sq_sqrt hvr
  have hn := Real.sqrt_nonneg (v : ℝ)
  unfold shrink
  rw [decide_eq_true_iff]
  constructor
  · rintro ⟨h1, h2, h3⟩
    refine ⟨?_, h3⟩
    have h1' : (n : ℝ) < b := by exact_mod_cast h1
    have h2' : 1024 * (v : ℝ) < ((b : ℝ) - n) ^ 2 := by exact_mod_cast h2
    have : 32 * √(v : ℝ) < (b : ℝ) - n := by
      apply lt_of_pow_lt_pow_left₀ 2 (by linarith)
      nlinarith
    linarith
  · rintro ⟨h1, h3⟩
    have h1' : (n : ℝ) < b := by linarith
    refine ⟨by exact_mod_cast h1', ?_, h3⟩
    have : 1024 * (v : ℝ) < ((b : ℝ) - n) ^ 2 := by
      have h4 : 32 * √(v : ℝ) < (b : ℝ) - n := by linarith
      nlinarith
    exact_mod_cast this

theorem slack_sq {v : ℚ} (hv : 0 ≤ v) : ((slack v : ℕ) : ℚ) ^ 2 ≤ 16 * v := by
  unfold slack
  have h := Nat.sqrt_le' ⌊16 * v⌋₊
  have h2 : ((Nat.sqrt ⌊16 * v⌋₊ ^ 2 : ℕ) : ℚ) ≤ (⌊16 * v⌋₊ : ℚ) := by exact_mod_cast h
  have h3 := Nat.floor_le (show (0 : ℚ) ≤ 16 * v by linarith)
  push_cast at h2
  linarith

theorem lt_slack_sq (v : ℚ) : 16 * v < ((slack v : ℕ) + 1 : ℚ) ^ 2 := by
  unfold slack
  have h := Nat.sqrt_lt' (m := ⌊16 * v⌋₊) (n := Nat.sqrt ⌊16 * v⌋₊ + 1)
  have h1 : ⌊16 * v⌋₊ < (Nat.sqrt ⌊16 * v⌋₊ + 1) ^ 2 := h.mp (Nat.lt_succ_self _)
  have h2 := Nat.lt_floor_add_one (16 * v)
  have h3 : ((⌊16 * v⌋₊ + 1 : ℕ) : ℚ) ≤ ((Nat.sqrt ⌊16 * v⌋₊ + 1) ^ 2 : ℕ) := by exact_mod_cast h1
  push_cast at h3
  linarith

theorem slack_eq {v : ℚ} (hv : 0 ≤ v) : slack v = ⌊4 * √(v : ℝ)⌋₊ := by
  have hvr : (0 : ℝ) ≤ v := by exact_mod_cast hv
  have hs := Real.sq_sqrt hvr
  have hn := Real.sqrt_nonneg (v : ℝ)
  symm
  rw [Nat.floor_eq_iff (by positivity)]
  have h1 : ((slack v : ℕ) : ℝ) ^ 2 ≤ 16 * v := by exact_mod_cast slack_sq hv
  have h2 : 16 * (v : ℝ) < ((slack v : ℕ) + 1 : ℝ) ^ 2 := by exact_mod_cast lt_slack_sq v
  constructor
  · apply le_of_sq_le_sq (by nlinarith) (by positivity)
  · apply lt_of_pow_lt_pow_left₀ 2 (by positivity)
    nlinarith

theorem slack_zero {v : ℚ} (h : 16 * v < 1) : slack v = 0 := by
  unfold slack
  rw [Nat.floor_eq_zero.mpr h]
  rfl

theorem slack_le {v : ℚ} {S : ℕ} (hv : 0 ≤ v) (h : v ≤ (S : ℚ) ^ 2) : slack v ≤ 4 * S := by
  have h1 := slack_sq hv
  have h2 : ((slack v : ℕ) : ℚ) ^ 2 ≤ ((4 * S : ℕ) : ℚ) ^ 2 := by push_cast; nlinarith
  have h3 : (slack v) ^ 2 ≤ (4 * S) ^ 2 := by exact_mod_cast h2
  exact (Nat.pow_le_pow_iff_left (by norm_num)).mp h3

/-! ### One resize -/

theorem realloc_iff (s : Stats) (n : ℕ) :
    reallocates s n = true ↔ s.bufSize < n ∨ shrink n s.bufSize (nextVar s n) = true := by
  unfold reallocates Alloc.mustRealloc
  simp

theorem room (s : Stats) (n : ℕ) : n ≤ (resize s n).bufSize := by
  unfold resize
  by_cases h : reallocates s n = true
  · simp only [if_pos h]
    unfold Alloc.allocSize
    rw [if_pos rfl]
    split <;> omega
  · simp only [if_neg h]
    rw [realloc_iff] at h
    omega

/-! ### Sizes with a bound -/

/-- what holds while no size exceeds `S` -/
structure Bounded (S : ℕ) (s : Stats) : Prop where
  avg0 : 0 ≤ s.avgSize
  avg : s.avgSize ≤ S
  var0 : 0 ≤ s.avgVar
  var : s.avgVar ≤ (S : ℚ) ^ 2
  buf : s.bufSize ≤ max 10 (5 * S)

theorem bounded_step {S : ℕ} {s : Stats} (h : Bounded S s) {n : ℕ} (hn : n ≤ S) : Bounded S (resize s n) := by
  obtain ⟨h1, h2, h3, h4, h5⟩ := h
  have hn' : (n : ℚ) ≤ S := by exact_mod_cast hn
  have hn0 : (0 : ℚ) ≤ n := by positivity
  have hd : (diff s n : ℚ) ^ 2 ≤ (S : ℚ) ^ 2 := by
    have e1 := trunc_abs_le ((n : ℚ) - nextAvg s n)
    rw [gap_eq] at e1
    have e2 : |(19 / 20 * ((n : ℚ) - s.avgSize))| ≤ S := by
      rw [abs_le]; constructor <;> linarith
    have e3 : |(diff s n : ℚ)| ≤ |(S : ℚ)| := by
      rw [abs_of_nonneg (show (0 : ℚ) ≤ S by positivity)]
      unfold diff
      rw [gap_eq]
      exact le_trans e1 e2
    exact sq_le_sq.mpr e3
  have hv0 := var_nonneg h3 n
  have hv : nextVar s n ≤ (S : ℚ) ^ 2 := by
    unfold nextVar r; nlinarith
  refine ⟨?_, ?_, hv0, hv, ?_⟩
  · show 0 ≤ nextAvg s n
    unfold nextAvg r; linarith
  · show nextAvg s n ≤ S
    unfold nextAvg r; linarith
  · have hs := slack_le hv0 hv
    unfold resize
    by_cases h : reallocates s n = true
    · simp only [if_pos h]
      unfold Alloc.allocSize
      rw [if_pos rfl]
      split <;> omega
    · simp only [if_neg h]
      exact h5

theorem run_bounded {S : ℕ} (l : List ℕ) (h : ∀ n ∈ l, n ≤ S) : Bounded S (run l) := by
  have : ∀ s, Bounded S s → Bounded S (l.foldl resize s) := by
    induction l with
    | nil => intro s hs; exact hs
    | cons a l ih =>
      intro s hs
      exact ih (fun n hn => h n (by simp [hn])) _ (bounded_step hs (h a (by simp)))
  exact this _ ⟨le_refl _, by unfold fresh; positivity, le_refl _, by unfold fresh; positivity, by unfold fresh; simp⟩

/-! ### Sizes that stay close to each other -/

/-- the `n`th state of a sequence of resizes -/
def iter (s : Stats) (f : ℕ → ℕ) : ℕ → Stats
  | 0 => s
  | n + 1 => resize (iter s f n) (f n)

theorem iter_var {s : Stats} (h : 0 ≤ s.avgVar) (f : ℕ → ℕ) (n : ℕ) : 0 ≤ (iter s f n).avgVar := by
  induction n with
  | zero => exact h
  | succ n ih => exact var_nonneg ih _

theorem iter_add (s : Stats) (f : ℕ → ℕ) (m n : ℕ) :
    iter s f (m + n) = iter (iter s f m) (fun i => f (m + i)) n := by
  induction n with
  | zero => rfl
  | succ n ih => show resize (iter s f (m + n)) (f (m + n)) = _; rw [ih]; rfl

/-- distance of the average to the interval -/
theorem avg_decay (s : Stats) (f : ℕ → ℕ) (N : ℕ) (hf : ∀ n, f n = N ∨ f n = N + 1) (C : ℚ) (hC : 0 ≤ C)
    (h1 : N - C ≤ s.avgSize) (h2 : s.avgSize ≤ N + 1 + C) (n : ℕ) :
    N - C * (19 / 20) ^ n ≤ (iter s f n).avgSize ∧ (iter s f n).avgSize ≤ N + 1 + C * (19 / 20) ^ n := by
  induction n with
  | zero => constructor <;> simp only [iter, pow_zero, mul_one] <;> assumption
  | succ n ih =>
    have hx : (0 : ℚ) ≤ C * (19 / 20) ^ n := by positivity
    have e : (iter s f (n + 1)).avgSize = 1 / 20 * (f n : ℚ) + 19 / 20 * (iter s f n).avgSize := by
      show nextAvg _ _ = _
      unfold nextAvg r; ring
    have hfn : (N : ℚ) ≤ f n ∧ (f n : ℚ) ≤ N + 1 := by
      rcases hf n with h | h <;> rw [h] <;> push_cast <;> constructor <;> linarith
    rw [e, pow_succ]
    constructor <;> nlinarith [ih.1, ih.2, hfn.1, hfn.2]

theorem exists_pow_small (C ε : ℚ) (hC : 0 ≤ C) (hε : 0 < ε) : ∃ n : ℕ, ∀ m, n ≤ m → C * (19 / 20 : ℚ) ^ m < ε := by
  obtain ⟨n, hn⟩ := exists_pow_lt_of_lt_one (show (0 : ℚ) < ε / (C + 1) by positivity) (show (19 / 20 : ℚ) < 1 by norm_num)
  refine ⟨n, fun m hm => ?_⟩
  have h1 : (19 / 20 : ℚ) ^ m ≤ (19 / 20) ^ n := pow_le_pow_of_le_one (by norm_num) (by norm_num) hm
  have h2 : (19 / 20 : ℚ) ^ m < ε / (C + 1) := lt_of_le_of_lt h1 hn
  rw [lt_div_iff₀ (by linarith)] at h2
  have h3 : (0 : ℚ) < (19 / 20) ^ m := by positivity
  nlinarith

/-- from some point on the statistics see no variance -/
theorem quiet (s : Stats) (h0 : 0 ≤ s.avgVar) (f : ℕ → ℕ) (N : ℕ) (hf : ∀ n, f n = N ∨ f n = N + 1) :
    ∃ n0, ∀ n, n0 ≤ n → 1024 * nextVar (iter s f n) (f n) < 1 := by
  obtain ⟨n1, hn1⟩ := exists_pow_small (|s.avgSize - N| + 1) (1 / 40) (by positivity) (by norm_num)
  have ha : ∀ n, n1 ≤ n → diff (iter s f n) (f n) = 0 := by
    intro n hn
    have hd := avg_decay s f N hf (|s.avgSize - N| + 1) (by positivity)
      (by have := neg_abs_le (s.avgSize - N); linarith) (by have := le_abs_self (s.avgSize - N); linarith) n
    have hs := hn1 n hn
    have hfn : (N : ℚ) ≤ f n ∧ (f n : ℚ) ≤ N + 1 := by
      rcases hf n with h | h <;> rw [h] <;> push_cast <;> constructor <;> linarith
    unfold diff
    apply trunc_zero
    rw [gap_eq, abs_lt]
    constructor <;> linarith [hd.1, hd.2, hfn.1, hfn.2]
  have hb : ∀ k, (iter s f (n1 + k)).avgVar = (iter s f n1).avgVar * (19 / 20) ^ k := by
    intro k
    induction k with
    | zero => simp
    | succ k ih =>
      have e : (iter s f (n1 + (k + 1))).avgVar = nextVar (iter s f (n1 + k)) (f (n1 + k)) := rfl
      rw [e]
      unfold nextVar
      rw [ha _ (by omega), ih]
      unfold r
      push_cast
      ring
  obtain ⟨n2, hn2⟩ := exists_pow_small (iter s f n1).avgVar (1 / 1024) (iter_var h0 f n1) (by norm_num)
  refine ⟨n1 + n2, fun n hn => ?_⟩
  have e : nextVar (iter s f n) (f n) = (iter s f (n1 + (n + 1 - n1))).avgVar := by
    rw [show n1 + (n + 1 - n1) = n + 1 by omega]; rfl
  rw [e, hb]
  have := hn2 (n + 1 - n1) (by omega)
  linarith

theorem quiet_alloc {s : Stats} {n : ℕ} (h : 1024 * nextVar s n < 1) (hr : reallocates s n = true) :
    (resize s n).bufSize = if n = 0 then 10 else n := by
  unfold resize
  simp only [if_pos hr]
  unfold Alloc.allocSize
  rw [if_pos rfl, slack_zero (by linarith)]
  simp

theorem quiet_shrink {s : Stats} {n : ℕ} (h : 1024 * nextVar s n < 1) :
    shrink n s.bufSize (nextVar s n) = true ↔ n < s.bufSize ∧ 100 < s.bufSize := by
  unfold shrink
  rw [decide_eq_true_iff]
  constructor
  · rintro ⟨a, _, b⟩; exact ⟨a, b⟩
  · rintro ⟨a, b⟩
    refine ⟨a, ?_, b⟩
    have : ((n + 1 : ℕ) : ℚ) ≤ s.bufSize := by exact_mod_cast a
    push_cast at this
    nlinarith

theorem iter_const (s : Stats) (N n : ℕ) : (List.replicate n N).foldl resize s = iter s (fun _ => N) n := by
  induction n with
  | zero => rfl
  | succ n ih =>
    rw [List.replicate_succ', List.foldl_append, ih]
    rfl

theorem const_settles (s : Stats) (h0 : 0 ≤ s.avgVar) (N : ℕ) :
    ∃ n0, ∀ n, n0 ≤ n → reallocates (iter s (fun _ => N) n) N = false ∧
      (iter s (fun _ => N) n).bufSize ≤ max N 100 := by
  obtain ⟨n1, h1⟩ := quiet s h0 (fun _ => N) N (fun _ => Or.inl rfl)
  have key : ∀ k, N ≤ (iter s (fun _ => N) (n1 + 1 + k)).bufSize ∧
      (iter s (fun _ => N) (n1 + 1 + k)).bufSize ≤ max N 100 := by
    intro k
    have hq := h1 (n1 + k) (by omega)
    rw [show n1 + 1 + k = n1 + k + 1 by omega]
    refine ⟨room _ _, ?_⟩
    show (resize (iter s (fun _ => N) (n1 + k)) N).bufSize ≤ _
    by_cases hr : reallocates (iter s (fun _ => N) (n1 + k)) N = true
    · rw [quiet_alloc hq hr]
      split <;> omega
    · have hr' := hr
      rw [realloc_iff, quiet_shrink hq] at hr'
      have : (resize (iter s (fun _ => N) (n1 + k)) N).bufSize = (iter s (fun _ => N) (n1 + k)).bufSize := by
        unfold resize
        simp only [if_neg hr]
      rw [this]
      omega
  refine ⟨n1 + 1, fun n hn => ?_⟩
  obtain ⟨k, rfl⟩ := Nat.exists_eq_add_of_le hn
  have hk := key k
  refine ⟨?_, hk.2⟩
  rw [Bool.eq_false_iff]
  intro hr
  rw [realloc_iff, quiet_shrink (h1 _ (by omega))] at hr
  omega

theorem alternate_never_settles (s : Stats) (h0 : 0 ≤ s.avgVar) (N : ℕ) (hN : 100 ≤ N) :
    ∃ n0, ∀ n, n0 ≤ n → reallocates (iter s (fun i => N + i % 2) n) (N + n % 2) = true := by
  obtain ⟨n1, h1⟩ := quiet s h0 (fun i => N + i % 2) N (fun n => by
    rcases Nat.mod_two_eq_zero_or_one n with h | h <;> simp [h])
  have keyE : ∀ n, n1 ≤ n → n % 2 = 1 → reallocates (iter s (fun i => N + i % 2) (n + 1)) N = true := by
    intro n hn ho
    have hroom := room (iter s (fun i => N + i % 2) n) (N + n % 2)
    have hq := h1 (n + 1) (by omega)
    have e : N + (n + 1) % 2 = N := by omega
    simp only [e] at hq
    rw [realloc_iff, quiet_shrink hq]
    right
    have e2 : (iter s (fun i => N + i % 2) (n + 1)) = resize (iter s (fun i => N + i % 2) n) (N + n % 2) := rfl
    rw [e2]
    omega
  refine ⟨n1 + 2, fun n hn => ?_⟩
  rcases Nat.mod_two_eq_zero_or_one n with h | h
  · obtain ⟨m, rfl⟩ : ∃ m, n = m + 1 := ⟨n - 1, by omega⟩
    rw [h]
    exact keyE m (by omega) (by omega)
  · obtain ⟨m, rfl⟩ : ∃ m, n = m + 2 := ⟨n - 2, by omega⟩
    have hr := keyE m (by omega) (by omega)
    have hq := h1 (m + 1) (by omega)
    have e : N + (m + 1) % 2 = N := by omega
    simp only [e] at hq
    have hb := quiet_alloc hq hr
    rw [if_neg (by omega)] at hb
    rw [realloc_iff]
    left
    have e2 : (iter s (fun i => N + i % 2) (m + 2)) =
        resize (iter s (fun i => N + i % 2) (m + 1)) (N + (m + 1) % 2) := rfl
    rw [e2, e, hb]
    omega

/-! ### Throwing memory away -/

/-- how fast a bound on a deviation grows when one goes back in time -/
def q : ℚ := 513 / 500

/-- the bound on a deviation, in units of the memory that is thrown away -/
def b : ℚ := 7 / 50

/-- the sum of the bounds -/
def G (n : ℕ) : ℚ := b * ((q ^ n - 1) / (q - 1))

theorem G_succ (n : ℕ) : G (n + 1) = G n + b * q ^ n := by
  unfold G
  have : q - 1 ≠ 0 := by unfold q; norm_num
  field_simp
  ring

theorem one_le_q_pow (n : ℕ) : 1 ≤ q ^ n := one_le_pow₀ (by unfold q; norm_num)

theorem q_pow_bound (n : ℕ) : (20 / 19 : ℚ) ^ n ≤ (q ^ n) ^ 2 := by
  rw [← pow_mul, mul_comm, pow_mul]
  exact pow_le_pow_left₀ (by norm_num) (by unfold q; norm_num) n

theorem var_back {t : Stats} (h : 0 ≤ t.avgVar) (l : List ℕ) :
    t.avgVar ≤ (20 / 19) ^ l.length * (l.foldl resize t).avgVar := by
  induction l generalizing t with
  | nil => simp
  | cons a l ih =>
    have h0 : 0 ≤ (resize t a).avgVar := var_nonneg h a
    have h1 := ih h0
    have h2 := var_decay t a
    rw [List.length_cons, pow_succ]
    show _ ≤ _ * (l.foldl resize (resize t a)).avgVar
    have h3 : (resize t a).avgVar = nextVar t a := rfl
    rw [h3] at h1
    nlinarith

/-- the deviation at a step is bounded by the variance at the end -/
theorem gap_back {t : Stats} (h : 0 ≤ t.avgVar) (a : ℕ) (l : List ℕ) {D : ℚ} (hD : 0 < D)
    (hV : 1024 * (l.foldl resize (resize t a)).avgVar < D ^ 2) :
    |(a : ℚ) - (resize t a).avgSize| ≤ b * q ^ l.length * D + 1 := by
  have h0 : 0 ≤ (resize t a).avgVar := var_nonneg h a
  have h1 := var_back h0 l
  have h2 := var_diff h a
  have h3 : (resize t a).avgVar = nextVar t a := rfl
  have h4 : (resize t a).avgSize = nextAvg t a := rfl
  have h5 := q_pow_bound l.length
  have hp : (0 : ℚ) < (20 / 19) ^ l.length := by positivity
  have hq := one_le_q_pow l.length
  rw [h3] at h1
  have h6 : (diff t a : ℚ) ^ 2 ≤ (b * q ^ l.length * D) ^ 2 := by
    have e1 : (diff t a : ℚ) ^ 2 ≤ 20 * ((20 / 19) ^ l.length * (D ^ 2 / 1024)) := by
      have : (20 / 19 : ℚ) ^ l.length * (l.foldl resize (resize t a)).avgVar ≤ (20 / 19) ^ l.length * (D ^ 2 / 1024) :=
        mul_le_mul_of_nonneg_left (by linarith) hp.le
      linarith
    have e2 : (20 : ℚ) * ((20 / 19) ^ l.length * (D ^ 2 / 1024)) ≤ 20 / 1024 * (q ^ l.length) ^ 2 * D ^ 2 := by
      have : (20 / 19 : ℚ) ^ l.length * D ^ 2 ≤ (q ^ l.length) ^ 2 * D ^ 2 :=
        mul_le_mul_of_nonneg_right h5 (by positivity)
      linarith
    have e3 : (20 : ℚ) / 1024 * (q ^ l.length) ^ 2 * D ^ 2 ≤ (b * q ^ l.length * D) ^ 2 := by
      have : (0 : ℚ) ≤ (q ^ l.length) ^ 2 * D ^ 2 := by positivity
      unfold b
      nlinarith
    linarith
  have h7 : |(diff t a : ℚ)| ≤ b * q ^ l.length * D := by
    have hb : 0 ≤ b * q ^ l.length * D := by unfold b; positivity
    have := sq_le_sq.mp h6
    rwa [abs_of_nonneg hb] at this
  have h8 := abs_lt_trunc ((a : ℚ) - nextAvg t a)
  rw [h4]
  have h9 : ((trunc ((a : ℚ) - nextAvg t a) : ℤ) : ℚ) = diff t a := rfl
  rw [h9] at h8
  linarith

/-- how far the average has come -/
theorem avg_back {t : Stats} (h : 0 ≤ t.avgVar) (l : List ℕ) {D : ℚ} (hD : 0 < D)
    (hV : 1024 * (l.foldl resize t).avgVar < D ^ 2) :
    |(l.foldl resize t).avgSize - t.avgSize| ≤ 1 / 19 * (G l.length * D + l.length) := by
  induction l generalizing t with
  | nil => simp [G]
  | cons a l ih =>
    have h1 := ih (var_nonneg (s := t) h a : 0 ≤ (resize t a).avgVar) hV
    have h2 := gap_back h a l hD hV
    have h3 := gap_move t a
    have h4 : (resize t a).avgSize = nextAvg t a := rfl
    rw [List.length_cons, G_succ]
    show |(l.foldl resize (resize t a)).avgSize - t.avgSize| ≤ _
    have h5 : (l.foldl resize (resize t a)).avgSize - t.avgSize =
        ((l.foldl resize (resize t a)).avgSize - (resize t a).avgSize) + 1 / 19 * ((a : ℚ) - (resize t a).avgSize) := by
      rw [h4, ← h3]; ring
    rw [h5]
    have h6 := abs_add_le ((l.foldl resize (resize t a)).avgSize - (resize t a).avgSize) (1 / 19 * ((a : ℚ) - (resize t a).avgSize))
    rw [abs_mul, abs_of_pos (show (0 : ℚ) < 1 / 19 by norm_num)] at h6
    push_cast
    linarith

theorem size_back {t : Stats} (h : 0 ≤ t.avgVar) (a M : ℕ) (mid : List ℕ) (hk : mid.length < 20) {D : ℚ} (hD : 0 < D)
    (hV : 1024 * nextVar (mid.foldl resize (resize t a)) M < D ^ 2) :
    (a : ℚ) - M ≤ 5642 / 10000 * D + 3 + 1 / 19 := by
  have h0 : 0 ≤ (resize t a).avgVar := var_nonneg h a
  have hV' : 1024 * ((mid ++ [M]).foldl resize (resize t a)).avgVar < D ^ 2 := by
    rw [List.foldl_append]; exact hV
  have h1 := gap_back h a (mid ++ [M]) hD hV'
  have h2 := avg_back h0 (mid ++ [M]) hD hV'
  have h3 := gap_back (foldl_var h0 mid) M [] hD hV
  have e : (mid ++ [M]).foldl resize (resize t a) = resize (mid.foldl resize (resize t a)) M := by
    rw [List.foldl_append]; rfl
  rw [e] at h2
  have hl : (mid ++ [M]).length = mid.length + 1 := by simp
  rw [hl] at h1 h2
  have hq : q ^ (mid.length + 1) ≤ q ^ 20 := pow_le_pow_right₀ (by unfold q; norm_num) (by omega)
  have hq20 : q ^ 20 ≤ 16710 / 10000 := by unfold q; norm_num
  have hG : G (mid.length + 1) ≤ 36131 / 10000 := by
    unfold G
    have : (q ^ (mid.length + 1) - 1) / (q - 1) ≤ (16710 / 10000 - 1) / (q - 1) := by
      apply div_le_div_of_nonneg_right
      · linarith
      · unfold q; norm_num
    unfold b
    have e2 : ((16710 / 10000 - 1) / (q - 1) : ℚ) ≤ 258077 / 10000 := by unfold q; norm_num
    linarith
  have hln : ((mid.length + 1 : ℕ) : ℚ) ≤ 20 := by exact_mod_cast hk
  have a1 := le_of_abs_le h1
  have a2 := (abs_le.mp h2).1
  have a3 := (abs_le.mp h3).1
  have b1 : b * q ^ (mid.length + 1) * D ≤ 7 / 50 * (16710 / 10000) * D := by
    unfold b
    have : q ^ (mid.length + 1) * D ≤ 16710 / 10000 * D := mul_le_mul_of_nonneg_right (by linarith) hD.le
    linarith
  have b2 : G (mid.length + 1) * D ≤ 36131 / 10000 * D := mul_le_mul_of_nonneg_right hG hD.le
  simp only [List.length_nil, pow_zero, mul_one, List.foldl_nil] at a3
  unfold b at a3
  linarith

theorem throw_core {t : Stats} (h : 0 ≤ t.avgVar) (a M : ℕ) (mid : List ℕ) (hk : mid.length < 20)
    (hs : shrink M (mid.foldl resize (resize t a)).bufSize (nextVar (mid.foldl resize (resize t a)) M) = true)
    (hD : M + 14 ≤ (mid.foldl resize (resize t a)).bufSize) :
    a < (mid.foldl resize (resize t a)).bufSize ∧
      ((mid.foldl resize (resize t a)).bufSize = (resize t a).bufSize → reallocates t a = false) := by
  have h0 : 0 ≤ (resize t a).avgVar := var_nonneg h a
  generalize hst : mid.foldl resize (resize t a) = st at hs hD ⊢
  unfold shrink at hs
  rw [decide_eq_true_iff] at hs
  obtain ⟨s1, s2, s3⟩ := hs
  have hDq : (M : ℚ) + 14 ≤ st.bufSize := by exact_mod_cast hD
  have hV : 1024 * nextVar (mid.foldl resize (resize t a)) M < ((st.bufSize : ℚ) - M) ^ 2 := by rw [hst]; exact s2
  have hsz := size_back h a M mid hk (by linarith : (0 : ℚ) < (st.bufSize : ℚ) - M) hV
  constructor
  · by_contra hc
    have : (st.bufSize : ℚ) ≤ a := by exact_mod_cast not_lt.mp hc
    linarith
  · intro hb
    rw [Bool.eq_false_iff]
    intro hr
    have hv : 0 ≤ nextVar t a := var_nonneg h a
    have hbuf : (resize t a).bufSize = a + slack (nextVar t a) := by
      have e : (resize t a).bufSize = Alloc.allocSize true a (slack (nextVar t a)) := by
        unfold resize; simp only [if_pos hr]
      rw [e]
      unfold Alloc.allocSize
      rw [if_pos rfl]
      by_cases hz : a + slack (nextVar t a) = 0
      · exfalso
        unfold Alloc.allocSize at e
        rw [if_pos rfl, if_pos hz] at e
        omega
      · rw [if_neg hz]
    have hsl := slack_sq hv
    have hvb := var_back h0 (mid ++ [M])
    rw [List.foldl_append, hst] at hvb
    have e1 : ([M].foldl resize st).avgVar = nextVar st M := rfl
    have e2 : (resize t a).avgVar = nextVar t a := rfl
    rw [e1, e2] at hvb
    have hl : (mid ++ [M]).length = mid.length + 1 := by simp
    rw [hl] at hvb
    have hq : q ^ (mid.length + 1) ≤ q ^ 20 := pow_le_pow_right₀ (by unfold q; norm_num) (by omega)
    have hq20 : q ^ 20 ≤ 16710 / 10000 := by unfold q; norm_num
    have hqb := q_pow_bound (mid.length + 1)
    have hq1 := one_le_q_pow (mid.length + 1)
    have hp : (0 : ℚ) < (20 / 19) ^ (mid.length + 1) := by positivity
    have hp2 : (20 / 19 : ℚ) ^ (mid.length + 1) ≤ (16710 / 10000) ^ 2 := by nlinarith
    have hslk : (slack (nextVar t a) : ℚ) ^ 2 ≤ (1 / 8 * (16710 / 10000) * ((st.bufSize : ℚ) - M)) ^ 2 := by
      have c1 : (20 / 19 : ℚ) ^ (mid.length + 1) * nextVar st M ≤
          (20 / 19 : ℚ) ^ (mid.length + 1) * (((st.bufSize : ℚ) - M) ^ 2 / 1024) :=
        mul_le_mul_of_nonneg_left (by linarith) hp.le
      have c2 : (20 / 19 : ℚ) ^ (mid.length + 1) * (((st.bufSize : ℚ) - M) ^ 2 / 1024) ≤
          (16710 / 10000) ^ 2 * (((st.bufSize : ℚ) - M) ^ 2 / 1024) :=
        mul_le_mul_of_nonneg_right hp2 (by positivity)
      nlinarith
    have hslk' := abs_le_of_sq_le_sq hslk (by linarith)
    have hB : (st.bufSize : ℚ) = a + slack (nextVar t a) := by
      rw [hb, hbuf]; push_cast; ring
    linarith [le_of_abs_le hslk']

theorem throw_late {t : Stats} (h : 0 ≤ t.avgVar) (a M : ℕ) (mid : List ℕ) (hk : mid.length < 20)
    (hs : shrink M (mid.foldl resize (resize t a)).bufSize (nextVar (mid.foldl resize (resize t a)) M) = true)
    (hD : M + 14 ≤ (mid.foldl resize (resize t a)).bufSize) :
    (mid.foldl resize (resize t a)).bufSize = (resize t a).bufSize ∧ reallocates t a = false := by
  induction mid generalizing t a with
  | nil => exact ⟨rfl, (throw_core h a M [] hk hs hD).2 rfl⟩
  | cons a' mid ih =>
    have h0 : 0 ≤ (resize t a).avgVar := var_nonneg h a
    obtain ⟨i1, i2⟩ := ih h0 a' (by simp at hk; omega) hs hD
    have e : (resize (resize t a) a').bufSize = (resize t a).bufSize := by
      rw [show (resize (resize t a) a').bufSize = if reallocates (resize t a) a' then _ else (resize t a).bufSize from rfl, i2]
      rfl
    have hb : ((a' :: mid).foldl resize (resize t a)).bufSize = (resize t a).bufSize := by
      rw [← e, ← i1]; rfl
    exact ⟨hb, (throw_core h a M (a' :: mid) hk hs hD).2 hb⟩

end Schnek.Lemma.LazyStats
