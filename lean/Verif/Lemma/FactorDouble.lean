import Verif.Model.FactorDouble
import Verif.Lemma.Binary64
import Verif.Props.Factor

/-!
# Helper lemmas for C123
-/

namespace Schnek.Lemma.FactorDouble

open Schnek Schnek.Factor Schnek.Binary64 Schnek.Lemma.Binary64 Schnek.Lemma.Factor Schnek.Props

open Function (update update_self update_of_ne)

variable {n : ℕ}

/-- `1 + 2^-53` -/
abbrev up : ℚ := 1 + 1 / 2 ^ 53

/-- `1 - 2^-53` -/
abbrev dn : ℚ := 1 - 1 / 2 ^ 53

theorem up_one : 1 ≤ up := by norm_num [up]

theorem dn_one : dn ≤ 1 := by norm_num [dn]

theorem dn_pos : 0 < dn := by norm_num [dn]

theorem dn_le_up : dn ≤ up := by norm_num [dn, up]

theorem tiny {x : ℚ} (h : 1 / 2 ^ 40 ≤ x) : (2 : ℚ) ^ (-1022 : ℤ) ≤ |x| := by
  refine le_trans ?_ (le_abs_self x)
  refine le_trans ?_ h
  rw [show (1 : ℚ) / 2 ^ 40 = 2 ^ (-40 : ℤ) by norm_num]
  exact zpow_le_zpow_right₀ (by norm_num) (by norm_num)

theorem rnd_bounds {x : ℚ} (h : 1 / 2 ^ 40 ≤ x) : dn * x ≤ rnd x ∧ rnd x ≤ up * x := by
  have h0 : 0 ≤ x := le_trans (by norm_num) h
  have h1 := abs_le.mp (rnd_rel (tiny h))
  rw [abs_of_nonneg h0] at h1
  simp only [dn, up]
  constructor <;> linarith [h1.1, h1.2]

theorem sum_bounds (d : Fin n → ℚ) (hd : ∀ i, 1 / 2 ^ 40 ≤ d i) : ∀ (l : List (Fin n)) (s : ℚ), 0 ≤ s →
    dn ^ l.length * (s + (l.map d).sum) ≤ l.foldl (fun s i => doubleOps.add s (d i)) s ∧
      l.foldl (fun s i => doubleOps.add s (d i)) s ≤ up ^ l.length * (s + (l.map d).sum)
  | [], s, _ => by simp
  | a :: l, s, hs => by
    have ha := hd a
    have h1 : (1 : ℚ) / 2 ^ 40 ≤ s + d a := by linarith
    obtain ⟨b1, b2⟩ := rnd_bounds h1
    have hp : 0 ≤ s + d a := le_trans (by norm_num) h1
    have h2 : 0 ≤ rnd (s + d a) := le_trans (mul_nonneg dn_pos.le hp) b1
    obtain ⟨c1, c2⟩ := sum_bounds d hd l (rnd (s + d a)) h2
    have hS : 0 ≤ (l.map d).sum := List.sum_nonneg fun x hx => by
      obtain ⟨i, _, rfl⟩ := List.mem_map.mp hx
      exact le_trans (by norm_num) (hd i)
    rw [List.foldl_cons, List.length_cons, List.map_cons, List.sum_cons]
    constructor
    · refine le_trans ?_ c1
      rw [pow_succ, mul_assoc]
      refine mul_le_mul_of_nonneg_left ?_ (pow_nonneg dn_pos.le _)
      have := mul_le_mul_of_nonneg_right dn_one hS
      linarith
    · refine le_trans c2 ?_
      rw [pow_succ, mul_assoc]
      refine mul_le_mul_of_nonneg_left ?_ (pow_nonneg (le_trans zero_le_one up_one) _)
      have := mul_le_mul_of_nonneg_right up_one hS
      linarith

theorem calcsum_bounds (d : Fin n → ℚ) (hd : ∀ i, 1 / 2 ^ 40 ≤ d i) :
    dn ^ n * ∑ i, d i ≤ calcsum doubleOps d ∧ calcsum doubleOps d ≤ up ^ n * ∑ i, d i := by
  have h := sum_bounds d hd (List.finRange n) 0 le_rfl
  rw [List.length_finRange, ← List.ofFn_eq_map, List.sum_ofFn, zero_add] at h
  exact h

/-- the weights are positive `int`s -/
abbrev Weights (w : Fin (n + 1) → ℤ) : Prop := ∀ i, 1 ≤ w i ∧ w i < 2 ^ 31

theorem ratio_large {w : Fin (n + 1) → ℤ} (hw : Weights w) {k : Fin (n + 1) → ℕ} (hk : ∀ i, 1 ≤ k i) (i : Fin (n + 1)) :
    (1 : ℚ) / 2 ^ 31 ≤ (k i : ℚ) / (w i : ℚ) := by
  have h1 : (1 : ℚ) ≤ k i := by exact_mod_cast hk i
  have h2 : (1 : ℚ) ≤ w i := by exact_mod_cast (hw i).1
  have h3 : (w i : ℚ) ≤ 2 ^ 31 := by exact_mod_cast (hw i).2.le
  rw [div_le_div_iff₀ (by norm_num) (by linarith)]
  nlinarith

theorem argmin_double (d : Fin (n + 1) → ℚ) (j : Fin (n + 1)) : d (argmin doubleOps d) ≤ d j := argmin_le d j

theorem cost_nonneg {w : Fin (n + 1) → ℤ} (hw : Weights w) (k : Fin (n + 1) → ℕ) : 0 ≤ layoutCost w k := by
  refine Finset.sum_nonneg fun i _ => div_nonneg (Nat.cast_nonneg _) ?_
  exact_mod_cast (le_trans zero_le_one (hw i).1)

theorem distribute_double {w : Fin (n + 1) → ℤ} (hw : Weights w) : ∀ (rest : List ℕ) (f : ℕ) (k : Fin (n + 1) → ℕ),
    f.Prime → (∀ p ∈ rest, p.Prime) → (∀ i, 1 ≤ k i) →
    dn ^ (n + 3) * layoutCost w (distribute doubleOps w f rest k).1 ≤ (distribute doubleOps w f rest k).2 ∧
    ∀ m : Fin (n + 1) → ℕ, ∏ i, m i = f * rest.prod →
      (distribute doubleOps w f rest k).2 ≤ up ^ (n + 3) * (up / dn) * layoutCost w (fun i => k i * m i)
  | [], f, k, hf, _, hk => by
    simp only [distribute]
    obtain ⟨a, ha⟩ : ∃ a, a = argmin doubleOps (fun i => doubleOps.ratio (k i) (w i)) := ⟨_, rfl⟩
    have hmin := argmin_double (fun i => doubleOps.ratio (k i) (w i))
    rw [← ha] at hmin ⊢
    have hf1 : (1 : ℚ) ≤ (f : ℚ) := by exact_mod_cast hf.one_lt.le
    have r1 : ∀ i, dn * ((k i : ℚ) / (w i : ℚ)) ≤ doubleOps.ratio (k i) (w i) ∧
        doubleOps.ratio (k i) (w i) ≤ up * ((k i : ℚ) / (w i : ℚ)) := fun i =>
      rnd_bounds (le_trans (by norm_num) (ratio_large hw hk i))
    have r1' : ∀ i, (1 : ℚ) / 2 ^ 32 ≤ doubleOps.ratio (k i) (w i) := fun i => by
      refine le_trans ?_ (r1 i).1
      have := mul_le_mul_of_nonneg_left (ratio_large hw hk i) dn_pos.le
      refine le_trans ?_ this
      norm_num [dn]
    have hx : (1 : ℚ) / 2 ^ 32 ≤ doubleOps.ratio (k a) (w a) * f := by
      have := r1' a
      have h0 : (0 : ℚ) ≤ doubleOps.ratio (k a) (w a) := le_trans (by norm_num) this
      nlinarith
    have r2 := rnd_bounds (le_trans (by norm_num) hx : (1 : ℚ) / 2 ^ 40 ≤ _)
    -- the numbers that are added up
    have term : ∀ i, dn ^ 2 * ((update k a (k a * f) i : ℕ) / (w i : ℚ) : ℚ) ≤
          update (fun i => doubleOps.ratio (k i) (w i)) a (doubleOps.scale (doubleOps.ratio (k a) (w a)) f) i ∧
        update (fun i => doubleOps.ratio (k i) (w i)) a (doubleOps.scale (doubleOps.ratio (k a) (w a)) f) i ≤
          up ^ 2 * ((update k a (k a * f) i : ℕ) / (w i : ℚ) : ℚ) ∧
        (1 : ℚ) / 2 ^ 40 ≤
          update (fun i => doubleOps.ratio (k i) (w i)) a (doubleOps.scale (doubleOps.ratio (k a) (w a)) f) i := by
      intro i
      have hq : (0 : ℚ) ≤ (k i : ℚ) / (w i : ℚ) := le_trans (by norm_num) (ratio_large hw hk i)
      by_cases hi : i = a
      · subst hi
        rw [update_self, update_self]
        have e : (((k i * f : ℕ) : ℚ) / (w i : ℚ)) = (k i : ℚ) / (w i : ℚ) * f := by push_cast; ring
        rw [e]
        refine ⟨le_trans ?_ r2.1, le_trans r2.2 ?_, le_trans ?_ r2.1⟩
        · have := mul_le_mul_of_nonneg_left (mul_le_mul_of_nonneg_right (r1 i).1 (le_trans zero_le_one hf1)) dn_pos.le
          linarith
        · have := mul_le_mul_of_nonneg_left (mul_le_mul_of_nonneg_right (r1 i).2 (le_trans zero_le_one hf1))
            (le_trans zero_le_one up_one)
          linarith
        · refine le_trans ?_ (mul_le_mul_of_nonneg_left hx dn_pos.le)
          norm_num [dn]
      · rw [update_of_ne hi, update_of_ne hi]
        refine ⟨le_trans ?_ (r1 i).1, le_trans (r1 i).2 ?_, le_trans (by norm_num) (r1' i)⟩
        · have := mul_le_mul_of_nonneg_right dn_one (mul_nonneg dn_pos.le hq)
          linarith
        · have := mul_le_mul_of_nonneg_right up_one (mul_nonneg (le_trans zero_le_one up_one) hq)
          linarith
    obtain ⟨s1, s2⟩ := calcsum_bounds _ fun i => (term i).2.2
    have lo : dn ^ (n + 3) * layoutCost w (update k a (k a * f)) ≤
        calcsum doubleOps (update (fun i => doubleOps.ratio (k i) (w i)) a (doubleOps.scale (doubleOps.ratio (k a) (w a)) f)) := by
      refine le_trans ?_ s1
      rw [show n + 3 = (n + 1) + 2 by ring, pow_add, mul_assoc]
      refine mul_le_mul_of_nonneg_left ?_ (pow_nonneg dn_pos.le _)
      rw [layoutCost, Finset.mul_sum]
      exact Finset.sum_le_sum fun i _ => (term i).1
    have hi : calcsum doubleOps (update (fun i => doubleOps.ratio (k i) (w i)) a
        (doubleOps.scale (doubleOps.ratio (k a) (w a)) f)) ≤ up ^ (n + 3) * layoutCost w (update k a (k a * f)) := by
      refine le_trans s2 ?_
      rw [show n + 3 = (n + 1) + 2 by ring, pow_add up (n + 1) 2, mul_assoc]
      refine mul_le_mul_of_nonneg_left ?_ (pow_nonneg (le_trans zero_le_one up_one) _)
      rw [layoutCost, Finset.mul_sum]
      exact Finset.sum_le_sum fun i _ => (term i).2.1
    refine ⟨lo, fun m hm => le_trans hi ?_⟩
    obtain ⟨i, m', rfl, hm'⟩ := split_prime m f _ hf hm
    simp only [List.prod_nil] at hm'
    have hone : ∀ j, m' j = 1 := fun j => by
      have : m' j ∣ 1 := hm' ▸ Finset.dvd_prod_of_mem m' (Finset.mem_univ j)
      exact Nat.dvd_one.mp this
    have hki : (fun j => k j * update m' i (m' i * f) j) = update k i (k i * f) := by
      funext j
      by_cases hj : j = i
      · subst hj; simp [hone]
      · simp [hj, hone]
    rw [hki, mul_assoc]
    refine mul_le_mul_of_nonneg_left ?_ (pow_nonneg (le_trans zero_le_one up_one) _)
    rw [cost_mul, cost_mul]
    -- the smallest of the rounded ratios is nearly the smallest ratio
    have h1 : (k a : ℚ) / (w a : ℚ) ≤ up / dn * ((k i : ℚ) / (w i : ℚ)) := by
      rw [div_mul_eq_mul_div, le_div_iff₀ dn_pos, mul_comm]
      exact le_trans (r1 a).1 (le_trans (hmin i) (r1 i).2)
    have h2 : (1 : ℚ) ≤ up / dn := by rw [le_div_iff₀ dn_pos, one_mul]; exact dn_le_up
    have h3 := mul_le_mul_of_nonneg_left h1 (sub_nonneg.mpr hf1)
    have h4 := mul_le_mul_of_nonneg_right h2 (cost_nonneg hw k)
    obtain ⟨q, hq⟩ : ∃ q, q = up / dn := ⟨_, rfl⟩
    rw [← hq] at h3 h4 ⊢
    linarith
  | g :: rest, f, k, hf, hr, hk => by
    have hg := hr g List.mem_cons_self
    have hr' : ∀ p ∈ rest, p.Prime := fun p hp => hr p (List.mem_cons_of_mem _ hp)
    have hk' : ∀ i j, 1 ≤ update k i (k i * f) j := fun i j => by
      by_cases hj : j = i
      · subst hj; rw [update_self]; exact Nat.mul_pos (hk j) hf.pos
      · rw [update_of_ne hj]; exact hk j
    have ih := fun i => distribute_double hw rest g (update k i (k i * f)) hg hr' (hk' i)
    simp only [distribute]
    have gen : ∀ (l : List (Fin n)) (b : (Fin (n + 1) → ℕ) × ℚ), dn ^ (n + 3) * layoutCost w b.1 ≤ b.2 →
        let res := l.foldl (fun (best : (Fin (n + 1) → ℕ) × ℚ) (i : Fin n) =>
          let t := distribute doubleOps w g rest (update k i.succ (k i.succ * f))
          if doubleOps.lt t.2 best.2 then t else best) b
        dn ^ (n + 3) * layoutCost w res.1 ≤ res.2 ∧ res.2 ≤ b.2 ∧
          ∀ i ∈ l, res.2 ≤ (distribute doubleOps w g rest (update k i.succ (k i.succ * f))).2 := by
      intro l
      induction l with
      | nil => intro b hb; exact ⟨hb, le_rfl, by simp⟩
      | cons i l ihl =>
        intro b hb
        rw [List.foldl_cons]
        simp only
        by_cases hc : (distribute doubleOps w g rest (update k i.succ (k i.succ * f))).2 < b.2
        · rw [if_pos (by simpa [doubleOps] using hc)]
          obtain ⟨a1, a2, a3⟩ := ihl _ (ih i.succ).1
          refine ⟨a1, a2.trans hc.le, fun j hj => ?_⟩
          rcases List.mem_cons.mp hj with rfl | hj
          · exact a2
          · exact a3 j hj
        · rw [if_neg (by simpa [doubleOps] using hc)]
          obtain ⟨a1, a2, a3⟩ := ihl b hb
          refine ⟨a1, a2, fun j hj => ?_⟩
          rcases List.mem_cons.mp hj with rfl | hj
          · exact a2.trans (not_lt.mp hc)
          · exact a3 j hj
    obtain ⟨r1, r2, r3⟩ := gen (List.finRange n) _ (ih 0).1
    refine ⟨r1, fun m hm => ?_⟩
    obtain ⟨i, m', rfl, hm'⟩ := split_prime m f _ hf hm
    rw [List.prod_cons] at hm'
    have hki : (fun j => k j * update m' i (m' i * f) j) = fun j => update k i (k i * f) j * m' j := by
      funext j
      by_cases hj : j = i
      · subst hj; simp; ring
      · simp [hj]
    rw [hki]
    refine le_trans ?_ ((ih i).2 m' hm')
    refine Fin.cases r2 (fun i => r3 i (List.mem_finRange i)) i

theorem pow_bound (m : ℕ) (hm : m ≤ 2 ^ 49) : (up / dn) ^ m ≤ 1 + (m : ℚ) / 2 ^ 50 := by
  have h1 : up / dn ≤ 1 + 1 / 2 ^ 51 := by
    rw [div_le_iff₀ dn_pos]
    norm_num [up, dn]
  have h0 : (0 : ℚ) ≤ up / dn := div_nonneg (le_trans zero_le_one up_one) dn_pos.le
  induction m with
  | zero => simp
  | succ m ih =>
    have ih' := ih (by omega)
    have hm' : ((m : ℚ) + 1) ≤ 2 ^ 49 := by exact_mod_cast hm
    rw [pow_succ]
    have := mul_le_mul ih' h1 h0 (by positivity)
    refine le_trans this ?_
    push_cast
    have : (m : ℚ) / 2 ^ 50 * (1 / 2 ^ 51) ≤ 1 / 2 ^ 51 := by
      have : (m : ℚ) / 2 ^ 50 ≤ 1 := by rw [div_le_one (by norm_num)]; linarith
      linarith
    linarith

end Schnek.Lemma.FactorDouble
