import Verif.Lemma.FactorDouble
import Mathlib.Analysis.Real.Sqrt

/-!
# C123: the process layout in `double`
-/

namespace Schnek.Props

open Function (update update_self update_of_ne)

open Schnek Schnek.Factor Schnek.Binary64 Schnek.Lemma.Binary64 Schnek.Lemma.Factor Schnek.Lemma.FactorDouble

variable {n : ℕ}

/-- **C123** `int(floor(sqrt(number)))` is the integer square root, for any `sqrt` that gives a nearest number of type `double`. -/
theorem C123_sqrt (number : ℕ) (hn : number < 2 ^ 31) (r : ℚ)
    (hr : ∀ z : ℚ, IsFormat z → |(r : ℝ) - √(number : ℝ)| ≤ |(z : ℝ) - √(number : ℝ)|) : ⌊r⌋ = (Nat.sqrt number : ℤ) := by
  obtain ⟨k, hk⟩ : ∃ k, k = Nat.sqrt number := ⟨_, rfl⟩
  have h1 : k * k ≤ number := by rw [hk]; exact Nat.sqrt_le number
  have h2 : number < (k + 1) * (k + 1) := by rw [hk]; exact Nat.lt_succ_sqrt number
  have hk16 : k < 2 ^ 16 := by
    by_contra h
    have : (2 ^ 16) * (2 ^ 16) ≤ k * k := Nat.mul_le_mul (by omega) (by omega)
    omega
  have g1 : (k : ℝ) ≤ √(number : ℝ) := Real.le_sqrt_of_sq_le (by rw [sq]; exact_mod_cast h1)
  have g2 : √(number : ℝ) ≤ (k : ℝ) + 1 - 1 / 2 ^ 18 := by
    have hkr : (k : ℝ) + 1 ≤ 2 ^ 16 := by exact_mod_cast hk16
    have h0 : (0 : ℝ) ≤ k := Nat.cast_nonneg k
    refine Real.sqrt_le_iff.mpr ⟨by linarith, ?_⟩
    have : (number : ℝ) + 1 ≤ ((k : ℝ) + 1) * ((k : ℝ) + 1) := by exact_mod_cast h2
    nlinarith
  rw [← hk, Int.floor_eq_iff]
  constructor
  · by_contra hlt
    push Not at hlt
    have hz := hr (k : ℚ) (by exact_mod_cast isFormat_int (k := (k : ℤ)) (by rw [abs_of_nonneg (by positivity)]; omega))
    have hlt' : (r : ℝ) < (k : ℝ) := by exact_mod_cast hlt
    rw [abs_of_nonpos (by linarith), abs_of_nonpos (by push_cast; linarith)] at hz
    push_cast at hz
    linarith
  · by_contra hge
    push Not at hge
    have hf : IsFormat ((k : ℚ) + 1 - 1 / 2 ^ 18) := by
      have := isFormat_of_le (m := ((k : ℤ) + 1) * 2 ^ 18 - 1) (e := -18) (by rw [abs_of_nonneg (by omega)]; omega) (by norm_num)
      have e : (((((k : ℤ) + 1) * 2 ^ 18 - 1 : ℤ)) : ℚ) * 2 ^ (-18 : ℤ) = (k : ℚ) + 1 - 1 / 2 ^ 18 := by
        push_cast; norm_num; ring
      rwa [e] at this
    have hz := hr _ hf
    have hge' : (k : ℝ) + 1 ≤ (r : ℝ) := by exact_mod_cast hge
    rw [abs_of_nonneg (by linarith), abs_of_nonneg (by push_cast; linarith)] at hz
    push_cast at hz
    norm_num at hz g2
    linarith

/-- **C123** With rounding, the layout that `equalFactors` chooses costs at most the factor `1 + (n+4)·2^-50` more than any layout in
which the number of processes along dimension 0 is a multiple of the smallest prime factor. `n+1` is the number of dimensions. -/
theorem C123_layout (number : ℕ) (h : 2 ≤ number) (hn : n + 4 ≤ 2 ^ 49) (w : Fin (n + 1) → ℤ) (hw : ∀ i, 1 ≤ w i ∧ w i < 2 ^ 31)
    (k : Fin (n + 1) → ℕ) (hk : equalFactors doubleOps number w = some k) (k' : Fin (n + 1) → ℕ) (hprod : ∏ i, k' i = number)
    (hfirst : number.minFac ∣ k' 0) : layoutCost w k ≤ (1 + ((n + 4 : ℕ) : ℚ) / 2 ^ 50) * layoutCost w k' := by
  obtain ⟨l, e, l1, l2, l3⟩ := C21_prime_factorisation number (by omega)
  simp only [equalFactors, e, Option.map_some, Option.some.injEq] at hk
  match l, l1, l2, l3, hk with
  | [], _, l2, _, _ => simp at l2; omega
  | p :: rest, l1, l2, l3, hk =>
    have hp := l1 p List.mem_cons_self
    have hmin : number.minFac = p := by
      refine le_antisymm (Nat.minFac_le_of_dvd hp.two_le ⟨rest.prod, by rw [← l2, List.prod_cons]⟩) ?_
      have hm := Nat.minFac_prime (show number ≠ 1 by omega)
      have hd : number.minFac ∣ (p :: rest).prod := l2 ▸ Nat.minFac_dvd number
      obtain ⟨q, hq, hdq⟩ := (Prime.dvd_prod_iff (Nat.prime_iff.mp hm)).mp hd
      have hqe : number.minFac = q := (Nat.prime_dvd_prime_iff_eq hm (l1 q hq)).mp hdq
      rw [hqe]
      rcases List.mem_cons.mp hq with rfl | hq
      · exact le_rfl
      · exact (List.pairwise_cons.mp l3).1 q hq
    obtain ⟨t, ht⟩ := hfirst
    rw [hmin] at ht
    -- k' = (p,1,1,...) times m
    let m : Fin (n + 1) → ℕ := update k' 0 t
    have hk' : (fun i => update (fun _ : Fin (n + 1) => 1) 0 p i * m i) = k' := by
      funext i
      by_cases hi : i = 0
      · subst hi; simp [m, ht]
      · simp [m, hi]
    have hm : ∏ i, m i = rest.prod := by
      have h1 : ∏ i, (update (fun _ : Fin (n + 1) => 1) 0 p i * m i) = number := by
        rw [← hprod]; exact Finset.prod_congr rfl fun i _ => congrFun hk' i
      rw [Finset.prod_mul_distrib, Finset.prod_update_of_mem (Finset.mem_univ _)] at h1
      simp only [Finset.prod_const_one, mul_one] at h1
      rw [← l2, List.prod_cons] at h1
      exact Nat.eq_of_mul_eq_mul_left hp.pos h1
    match rest, l1, hm, hk with
    | [], _, hm, hk =>
      simp only at hk
      have hone : ∀ i, m i = 1 := fun i => by
        have : m i ∣ 1 := by
          have := Finset.dvd_prod_of_mem m (Finset.mem_univ i)
          rwa [hm, List.prod_nil] at this
        exact Nat.dvd_one.mp this
      rw [← hk, ← hk']
      simp only [hone, mul_one]
      refine le_mul_of_one_le_left (cost_nonneg hw _) ?_
      have : (0 : ℚ) ≤ ((n + 4 : ℕ) : ℚ) / 2 ^ 50 := by positivity
      linarith
    | f :: rest, l1, hm, hk =>
      simp only at hk
      obtain ⟨b1, b2⟩ := distribute_double hw rest f (update (fun _ : Fin (n + 1) => 1) 0 p)
        (l1 f (by simp)) (fun q hq => l1 q (by simp [hq])) (fun i => by
          by_cases hi : i = 0
          · subst hi; simpa using hp.one_lt.le
          · simp [hi])
      have b3 := b2 m hm
      rw [hk'] at b3
      rw [hk] at b1
      have b4 := le_trans b1 b3
      have hc := cost_nonneg hw k'
      refine le_trans ?_ (mul_le_mul_of_nonneg_right (pow_bound (n + 4) hn) hc)
      rw [div_pow, div_mul_eq_mul_div, le_div_iff₀ (pow_pos dn_pos _), show n + 4 = (n + 3) + 1 by ring, pow_succ dn, pow_succ up]
      have b5 := mul_le_mul_of_nonneg_left b4 dn_pos.le
      have e : dn * (up ^ (n + 3) * (up / dn) * layoutCost w k') = up ^ (n + 3) * up * layoutCost w k' := by
        have := dn_pos.ne'
        field_simp
      rw [e] at b5
      linarith

/-- a layout's cost is a fraction with the denominator `∏ w` -/
private theorem cost_int (w : Fin (n + 1) → ℤ) (hw : ∀ i, 1 ≤ w i ∧ w i < 2 ^ 31) (k : Fin (n + 1) → ℕ) :
    ∃ N : ℤ, layoutCost w k * ((∏ i, w i : ℤ) : ℚ) = N := by
  refine ⟨∑ i, k i * ∏ j ∈ Finset.univ.erase i, w j, ?_⟩
  rw [layoutCost, Finset.sum_mul]
  push_cast
  refine Finset.sum_congr rfl fun i _ => ?_
  have h0 : (w i : ℚ) ≠ 0 := by exact_mod_cast (by have := (hw i).1; omega : w i ≠ 0)
  rw [← Finset.mul_prod_erase _ _ (Finset.mem_univ i)]
  field_simp

/-- **C123** The rounding has no effect at all when the numbers are not huge: then the layout is as good as every layout in which the number
of processes along dimension 0 is a multiple of the smallest prime factor. -/
theorem C123_exact (number : ℕ) (h : 2 ≤ number) (w : Fin (n + 1) → ℤ) (hw : ∀ i, 1 ≤ w i ∧ w i < 2 ^ 31)
    (k : Fin (n + 1) → ℕ) (hk : equalFactors doubleOps number w = some k) (k' : Fin (n + 1) → ℕ) (hprod : ∏ i, k' i = number)
    (hfirst : number.minFac ∣ k' 0) (hn : n + 4 ≤ 2 ^ 49)
    (hsize : ((n + 4 : ℕ) : ℚ) * (layoutCost w k' * ((∏ i, w i : ℤ) : ℚ)) < 2 ^ 50) : layoutCost w k ≤ layoutCost w k' := by
  have hc := C123_layout number h hn w hw k hk k' hprod hfirst
  have hP : (0 : ℚ) < ((∏ i, w i : ℤ) : ℚ) := by exact_mod_cast Finset.prod_pos fun i _ => (hw i).1
  obtain ⟨N, hN⟩ := cost_int w hw k
  obtain ⟨N', hN'⟩ := cost_int w hw k'
  have h1 := mul_le_mul_of_nonneg_right hc hP.le
  rw [mul_assoc, hN, hN'] at h1
  rw [hN'] at hsize
  have h2 : (N : ℚ) < N' + 1 := by
    have : ((n + 4 : ℕ) : ℚ) / 2 ^ 50 * N' < 1 := by
      rw [div_mul_eq_mul_div, div_lt_one (by norm_num)]; exact hsize
    linarith
  have h3 : N ≤ N' := by
    have : N < N' + 1 := by exact_mod_cast h2
    omega
  refine le_of_mul_le_mul_right ?_ hP
  rw [hN, hN']
  exact_mod_cast h3

/-- The theorems are about layouts that are computed: 12 processes on a grid of 100 × 300 points are placed as 2 × 6, and a competitor is
6 × 2. -/
example : equalFactors doubleOps 12 (![100, 300] : Fin 2 → ℤ) = some ![2, 6] ∧ (∀ i, 1 ≤ (![100, 300] : Fin 2 → ℤ) i ∧ (![100, 300] : Fin 2 → ℤ) i < 2 ^ 31) ∧
    ∏ i, (![6, 2] : Fin 2 → ℕ) i = 12 ∧ Nat.minFac 12 ∣ (![6, 2] : Fin 2 → ℕ) 0 ∧
    ((1 + 4 : ℕ) : ℚ) * (layoutCost ![100, 300] ![6, 2] * ((∏ i, (![100, 300] : Fin 2 → ℤ) i : ℤ) : ℚ)) < 2 ^ 50 := by
  refine ⟨?_, by decide, by decide, ?_, ?_⟩
  · rw [equalFactors, show Nat.sqrt 12 = 3 from (Nat.eq_sqrt.mpr (by decide)).symm]; decide +kernel
  · norm_num
  · simp only [layoutCost, Fin.sum_univ_two, Fin.prod_univ_two]; norm_num

/-- `sqrt(2209)` is 47 -/
example : (∀ z : ℚ, IsFormat z → |((47 : ℚ) : ℝ) - √((2209 : ℕ) : ℝ)| ≤ |(z : ℝ) - √((2209 : ℕ) : ℝ)|) ∧ (2209 : ℕ) < 2 ^ 31 := by
  have : √((2209 : ℕ) : ℝ) = 47 := by
    rw [show ((2209 : ℕ) : ℝ) = 47 ^ 2 by norm_num]; exact Real.sqrt_sq (by norm_num)
  refine ⟨fun z _ => ?_, by norm_num⟩
  rw [this]
  simp

end Schnek.Props
