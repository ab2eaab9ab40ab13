import Verif.Model.ReduceDouble
import Verif.Props.AccumulateOrder

/-!
# C124: sums of `double` over all processes
-/

namespace Schnek.Props

open Schnek Schnek.Spec Schnek.Subdivision Schnek.Binary64 Schnek.Lemma.Binary64 Schnek.Mpi

variable {n : ℕ}

private theorem sumOf_of_reduction {M : Multiset ℚ} {r : ℚ} (h : Reduction Binary64.add M r) (hf : ∀ x ∈ M, IsFormat x) :
    ∃ (M' : Multiset Double) (a : Double), M'.map Double.val = M ∧ a.val = r ∧ SumOf M' a := by
  induction h with
  | one a => exact ⟨{⟨a, hf a (by simp)⟩}, ⟨a, hf a (by simp)⟩, by simp, rfl, .single _⟩
  | @join s t a b r h1 h2 h3 ih1 ih2 =>
    obtain ⟨M, x, e1, rfl, s1⟩ := ih1 fun y hy => hf y (Multiset.mem_add.mpr (Or.inl hy))
    obtain ⟨N, y, e2, rfl, s2⟩ := ih2 fun y hy => hf y (Multiset.mem_add.mpr (Or.inr hy))
    refine ⟨M + N, x + y, by rw [Multiset.map_add, e1, e2], ?_, .add s1 s2⟩
    exact (fl_eq h3).symm

private theorem reduction_error {M : Multiset ℚ} {r : ℚ} (h : Reduction Binary64.add M r) (hf : ∀ x ∈ M, IsFormat x) :
    |r - M.sum| ≤ ((1 + 1 / 2 ^ 53) ^ (M.card - 1) - 1) * (M.map fun x => |x|).sum := by
  obtain ⟨M', a, e1, e2, s⟩ := sumOf_of_reduction h hf
  have := C124_error M' a s
  rw [e1, e2] at this
  have hc : M'.card = M.card := by rw [← e1, Multiset.card_map]
  have hs : (M'.map fun x => |x.val|) = M.map fun x => |x| := by rw [← e1, Multiset.map_map]; rfl
  rwa [hc, hs] at this

private theorem pow_two (m : ℕ) (hm : m ≤ 2 ^ 31) : ((1 : ℚ) + 1 / 2 ^ 53) ^ m ≤ 2 := by
  have : ((1 : ℚ) + 1 / 2 ^ 53) ^ m ≤ 1 + m / 2 ^ 52 := by
    induction m with
    | zero => simp
    | succ m ih =>
      have ih' := ih (by omega)
      have hm' : ((m : ℚ) + 1) ≤ 2 ^ 31 := by exact_mod_cast hm
      rw [pow_succ]
      have h0 : (0 : ℚ) ≤ 1 / 2 ^ 53 := by norm_num
      have := mul_le_mul_of_nonneg_right ih' (show (0 : ℚ) ≤ 1 + 1 / 2 ^ 53 by norm_num)
      refine this.trans ?_
      push_cast
      have : (m : ℚ) / 2 ^ 52 * (1 / 2 ^ 53) ≤ 1 / 2 ^ 53 := by
        have : (m : ℚ) / 2 ^ 52 ≤ 1 := by rw [div_le_one (by norm_num)]; linarith
        linarith
      linarith
  have hm' : (m : ℚ) ≤ 2 ^ 31 := by exact_mod_cast hm
  linarith

private theorem reduction_exists (M : Multiset ℚ) (hM : M ≠ 0) (hf : ∀ x ∈ M, IsFormat x) (hc : M.card ≤ 2 ^ 31)
    (hs : (M.map fun x => |x|).sum ≤ 2 ^ (1000 : ℤ)) : ∃ r, Reduction Binary64.add M r := by
  induction M using Multiset.induction_on with
  | empty => exact absurd rfl hM
  | cons a M ih =>
    by_cases h0 : M = 0
    · subst h0; exact ⟨a, .one a⟩
    rw [Multiset.map_cons, Multiset.sum_cons] at hs
    have hn : 0 ≤ (M.map fun x => |x|).sum := Multiset.sum_nonneg fun x hx => by
      obtain ⟨y, _, rfl⟩ := Multiset.mem_map.mp hx; exact abs_nonneg _
    rw [Multiset.card_cons] at hc
    have hfM : ∀ x ∈ M, IsFormat x := fun x hx => hf x (Multiset.mem_cons_of_mem hx)
    have ha := abs_nonneg a
    obtain ⟨r, hr⟩ := ih h0 hfM (by omega) (le_trans (by linarith) hs)
    have he := reduction_error hr hfM
    have hp := pow_two (M.card - 1) (by omega)
    have hsum : |M.sum| ≤ (M.map fun x => |x|).sum := Multiset.abs_sum_le_sum_abs
    have hle : ((1 + 1 / 2 ^ 53) ^ (M.card - 1) - 1) * (M.map fun x => |x|).sum ≤ 1 * (M.map fun x => |x|).sum :=
      mul_le_mul_of_nonneg_right (by linarith) hn
    have hr2 : |r| ≤ 2 * (M.map fun x => |x|).sum := by
      have : r = (r - M.sum) + M.sum := by ring
      rw [this]
      refine (abs_add_le _ _).trans ?_
      linarith
    have hfl : Binary64.add a r = some (rnd (a + r)) := by
      refine fl_some ?_
      have h1 : |a + r| ≤ 4 * 2 ^ (1000 : ℤ) := by
        refine (abs_add_le _ _).trans ?_
        generalize (2 : ℚ) ^ (1000 : ℤ) = B at hs ⊢
        linarith
      refine h1.trans ?_
      rw [show (4 : ℚ) = 2 ^ (2 : ℤ) by norm_num, ← zpow_add₀ (by norm_num)]
      exact zpow_le_zpow_right₀ (by norm_num) (by norm_num)
    exact ⟨_, by rw [← Multiset.singleton_add]; exact .join (.one a) hr hfl⟩

private theorem card_values {S : Setup n} (v : Coord S → ℚ) : (values v).card = ∏ i, S.dims i := by
  rw [values, Multiset.card_map]
  show Fintype.card (Coord S) = _
  rw [Fintype.card_pi]
  simp

/-- **C124** `sumReduce(double)` returns a result if the values are not too large, and any result that it returns differs from the exact sum by
at most `((1 + 2^-53)^(number of processes - 1) - 1)` times the sum of the absolute values. -/
theorem C124_sumReduce (S : Setup n) (v : Coord S → ℚ) (hv : ∀ c, IsDouble (v c)) :
    (∀ r, SumReduceDouble v r →
      |r - ∑ c, v c| ≤ ((1 + 1 / 2 ^ 53) ^ (∏ i, S.dims i - 1) - 1) * ∑ c, |v c|) ∧
    (∑ c, |v c| ≤ 2 ^ 1000 → 1 ≤ ∏ i, S.dims i → ∏ i, S.dims i ≤ 2 ^ 31 → ∃ r, SumReduceDouble v r) := by
  have hf : ∀ x ∈ values v, IsFormat x := fun x hx => by
    obtain ⟨c, _, rfl⟩ := Multiset.mem_map.mp hx
    exact (hv c).1
  have hs : (values v).sum = ∑ c, v c := rfl
  have ha : ((values v).map fun x => |x|).sum = ∑ c, |v c| := by
    rw [values, Multiset.map_map]; rfl
  constructor
  · intro r h
    have := reduction_error h hf
    rwa [card_values, hs, ha] at this
  · intro h1 h2 h3
    refine reduction_exists _ (fun h => ?_) hf (by rw [card_values]; exact h3) (by rw [ha]; exact_mod_cast h1)
    have := card_values v
    rw [h, Multiset.card_zero] at this
    omega

/-- **C124** Any result of `avgReduce(double)` differs from the exact mean by at most `((1 + 2^-53)^(number of processes) - 1)` times the mean of the
absolute values, plus `2^-1075`. -/
theorem C124_avgReduce (S : Setup n) (v : Coord S → ℚ) (hv : ∀ c, IsDouble (v c)) (r : ℚ) (h : AvgReduceDouble v r) :
    |r - (∑ c, v c) / (∏ i, S.dims i : ℕ)| ≤
      ((1 + 1 / 2 ^ 53) ^ (∏ i, S.dims i) - 1) * ((∑ c, |v c|) / (∏ i, S.dims i : ℕ)) + 2 ^ (-1075 : ℤ) := by
  obtain ⟨s, h1, h2⟩ := h
  have he := (C124_sumReduce S v hv).1 s h1
  unfold Binary64.div at h2
  split at h2
  · simp at h2
  rename_i hP
  have hr := fl_eq h2
  have herr := rnd_err (s / ((∏ i, S.dims i : ℕ) : ℚ))
  rw [← hr] at herr
  have hsum : |∑ c, v c| ≤ ∑ c, |v c| := Finset.abs_sum_le_sum_abs _ _
  have hN : 1 ≤ ∏ i, S.dims i := by
    by_contra hc
    exact hP (by rw [show ∏ i, S.dims i = 0 by omega]; simp)
  obtain ⟨j, hj⟩ : ∃ j, ∏ i, S.dims i = j + 1 := ⟨∏ i, S.dims i - 1, by omega⟩
  rw [hj] at he herr ⊢
  rw [Nat.add_sub_cancel] at he
  rw [pow_succ]
  obtain ⟨t, ht⟩ : ∃ t : ℚ, t = 2 ^ (-1075 : ℤ) := ⟨_, rfl⟩
  rw [← ht] at herr ⊢
  have hq : (0 : ℚ) < ((j + 1 : ℕ) : ℚ) := by positivity
  generalize ((j + 1 : ℕ) : ℚ) = P at *
  generalize ∑ c, v c = A at *
  generalize ∑ c, |v c| = X at *
  generalize ((1 : ℚ) + 1 / 2 ^ 53) ^ j = Q at *
  clear ht
  have hX : 0 ≤ X := (abs_nonneg _).trans hsum
  have f1 : |s / P - A / P| ≤ (Q - 1) * (X / P) := by
    rw [← sub_div, abs_div, abs_of_pos hq, ← mul_div_assoc]
    exact div_le_div_of_nonneg_right he hq.le
  have f2 : |A / P| ≤ X / P := by rw [abs_div, abs_of_pos hq]; exact div_le_div_of_nonneg_right hsum hq.le
  generalize s / P = y at *
  generalize A / P = B at *
  generalize X / P = Y at *
  have g1 : |y| ≤ |y - B| + |B| := by
    have : y = (y - B) + B := by ring
    conv_lhs => rw [this]
    exact abs_add_le _ _
  have g2 : |r - B| ≤ |r - y| + |y - B| := by
    have : r - B = (r - y) + (y - B) := by ring
    rw [this]
    exact abs_add_le _ _
  nlinarith

/-- non-vacuity: six processes pass 0.5 -/
example : (∀ c : Coord exampleSetup, IsDouble ((fun _ => 1 / 2 : Coord exampleSetup → ℚ) c)) ∧ 1 ≤ ∏ i, exampleSetup.dims i ∧
    ∏ i, exampleSetup.dims i ≤ 2 ^ 31 ∧ ∃ r, SumReduceDouble (fun _ : Coord exampleSetup => 1 / 2) r := by
  have h1 : ∀ c : Coord exampleSetup, IsDouble ((fun _ => 1 / 2 : Coord exampleSetup → ℚ) c) := fun _ => by
    refine ⟨⟨1, -1, by norm_num, by norm_num, by norm_num⟩, ?_⟩
    show |(1 / 2 : ℚ)| < _
    rw [abs_of_pos (by norm_num)]
    exact lt_of_lt_of_le (by norm_num) (one_le_pow₀ (by norm_num))
  have h2 : 1 ≤ ∏ i, exampleSetup.dims i ∧ ∏ i, exampleSetup.dims i ≤ 2 ^ 31 := by decide
  refine ⟨h1, h2.1, h2.2, (C124_sumReduce exampleSetup _ h1).2 ?_ h2.1 h2.2⟩
  have h3 : Fintype.card (Coord exampleSetup) ≤ 6 := by
    rw [Fintype.card_pi]; decide
  have h4 : ((Fintype.card (Coord exampleSetup) : ℕ) : ℚ) ≤ 6 := by exact_mod_cast h3
  rw [Finset.sum_const, nsmul_eq_mul, Finset.card_univ, abs_of_pos (by norm_num)]
  have h5 : (2 : ℚ) ^ 3 ≤ 2 ^ 1000 := pow_le_pow_right₀ (by norm_num) (by norm_num)
  refine le_trans ?_ h5
  linarith

end Schnek.Props
