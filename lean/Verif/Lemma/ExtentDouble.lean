import Verif.Model.ExtentDouble
import Verif.Lemma.FieldDouble

/-!
# Helper lemmas for C125
-/

namespace Schnek.Lemma.ExtentDouble

open Schnek Schnek.Binary64 Schnek.Subdivision Schnek.Lemma.Binary64

/-- `h` is the exact cell width -/
theorem limit_error {N k : ℤ} {A B K h : ℚ} (hh : h = (B - A) / N) (hN : 1 ≤ N) (hN2 : N ≤ 2 ^ 26) (hk : 0 ≤ k) (hkN : k ≤ N)
    (hA : |A| ≤ 2 ^ (300 : ℤ)) (hB : |B| ≤ 2 ^ (300 : ℤ)) (hW : 2 ^ (-300 : ℤ) ≤ B - A) (hK : |A| ≤ K * h) :
    ∃ l, extentLimit N A B k = some l ∧ |l - (A + k * h)| ≤ (8 * N + K) / 2 ^ 53 * h := by
  have hN0 : (1 : ℚ) ≤ N := by exact_mod_cast hN
  have hN20 : (N : ℚ) ≤ 2 ^ 26 := by exact_mod_cast hN2
  have hk0 : (0 : ℚ) ≤ k := by exact_mod_cast hk
  have hkN0 : (k : ℚ) ≤ N := by exact_mod_cast hkN
  obtain ⟨W, hWd⟩ : ∃ W, W = B - A := ⟨_, rfl⟩
  rw [← hWd] at hW hh
  have hW0 : 0 < W := (two_pos _).trans_le hW
  have hh0 : 0 < h := by rw [hh]; positivity
  have hWh : W = N * h := by rw [hh]; field_simp
  have hh1 : 2 ^ (-326 : ℤ) ≤ h := by
    rw [hh, le_div_iff₀ (by linarith)]
    refine le_trans ?_ hW
    calc (2 : ℚ) ^ (-326 : ℤ) * N ≤ 2 ^ (-326 : ℤ) * 2 ^ (26 : ℤ) :=
          mul_le_mul_of_nonneg_left (hN20.trans (by norm_num)) (two_pos _).le
      _ = 2 ^ (-300 : ℤ) := by rw [← zpow_add₀ (by norm_num)]; norm_num
  have hW2 : W ≤ 2 ^ (301 : ℤ) := by
    have e : (2 : ℚ) ^ (301 : ℤ) = 2 * 2 ^ (300 : ℤ) := by
      rw [show (301 : ℤ) = 1 + 300 by norm_num, zpow_add₀ (by norm_num)]; norm_num
    rw [e]
    have h1 := abs_le.mp hA
    have h2 := abs_le.mp hB
    generalize (2 : ℚ) ^ (300 : ℤ) = z at *
    linarith [h1.1, h2.2]
  obtain ⟨u, hu⟩ : ∃ u : ℚ, u = 1 / 2 ^ 53 := ⟨_, rfl⟩
  have hu0 : 0 < u := by rw [hu]; positivity
  have hu1 : u ≤ 1 / 1000000 := by rw [hu]; norm_num
  have rel : ∀ {x : ℚ}, 2 ^ (-1022 : ℤ) ≤ x → |rnd x - x| ≤ u * x := fun {x} hx => by
    have h0 : 0 < x := (two_pos _).trans_le hx
    have := rnd_rel (x := x) (by rwa [abs_of_pos h0])
    rw [abs_of_pos h0] at this
    rw [hu]; linarith
  have z1 : (2 : ℚ) ^ (-1022 : ℤ) ≤ 2 ^ (-326 : ℤ) / 2 := by
    rw [show (2 : ℚ) ^ (-326 : ℤ) / 2 = 2 ^ (-327 : ℤ) by
      rw [show (-326 : ℤ) = -327 + 1 by norm_num, zpow_add₀ (by norm_num)]; norm_num]
    exact zpow_le_zpow_right₀ (by norm_num) (by norm_num)
  have z0 : (0 : ℚ) < 2 ^ (-326 : ℤ) := two_pos _
  -- the width
  have e1 : |rnd W - W| ≤ u * W := rel (by
    have : h ≤ W := by rw [hWh]; nlinarith
    generalize (2 : ℚ) ^ (-326 : ℤ) = z at *
    generalize (2 : ℚ) ^ (-1022 : ℤ) = y at *
    linarith)
  have b1 : |W| ≤ 2 ^ (301 : ℤ) := by rwa [abs_of_pos hW0]
  obtain ⟨w, hw⟩ : ∃ w, w = rnd W := ⟨_, rfl⟩
  rw [← hw] at e1
  rw [abs_le] at e1
  have w1 : w ≤ 2 * W := by nlinarith [e1.2]
  have w0 : W / 2 ≤ w := by nlinarith [e1.1]
  -- the cell width
  have q0 : h / 2 ≤ w / N := by
    rw [le_div_iff₀ (by linarith)]
    linarith
  have q1 : w / N ≤ 2 * h := by
    rw [div_le_iff₀ (by linarith)]
    linarith
  have e2 : |rnd (w / N) - w / N| ≤ u * (w / N) := rel (by
    generalize (2 : ℚ) ^ (-326 : ℤ) = z at *
    generalize (2 : ℚ) ^ (-1022 : ℤ) = y at *
    linarith)
  have e2' : |w / N - h| ≤ u * h := by
    have : w / N - h = (w - W) / N := by rw [hh]; ring
    rw [this, abs_div, abs_of_pos (show (0 : ℚ) < N by linarith), div_le_iff₀ (by linarith)]
    rw [abs_le]
    rw [hWh] at e1 ⊢
    constructor <;> linarith [e1.1, e1.2]
  have hbig : 2 * h ≤ 2 ^ (302 : ℤ) := by
    have : h ≤ W := by rw [hWh]; nlinarith
    have e : (2 : ℚ) ^ (302 : ℤ) = 2 * 2 ^ (301 : ℤ) := by
      rw [show (302 : ℤ) = 1 + 301 by norm_num, zpow_add₀ (by norm_num)]; norm_num
    rw [e]
    generalize (2 : ℚ) ^ (301 : ℤ) = z at *
    linarith
  have b2 : |w / N| ≤ 2 ^ (302 : ℤ) := by
    rw [abs_of_nonneg (by linarith)]
    exact q1.trans hbig
  obtain ⟨q, hq⟩ : ∃ q, q = rnd (w / N) := ⟨_, rfl⟩
  rw [← hq] at e2
  have q3 : |q - h| ≤ 3 * u * h ∧ h / 2 ≤ q ∧ q ≤ 2 * h := by
    rw [abs_le] at e2 e2' ⊢
    have k1 : u * (w / N) ≤ 2 * (u * h) := by nlinarith
    have k2 : u * h ≤ 1 / 1000000 * h := mul_le_mul_of_nonneg_right hu1 hh0.le
    refine ⟨⟨?_, ?_⟩, ?_, ?_⟩ <;> linarith [e2.1, e2.2, e2'.1, e2'.2]
  obtain ⟨e3, q4, q5⟩ := q3
  -- the product
  have e4 : |rnd (k * q) - k * q| ≤ u * (k * q) := by
    rcases eq_or_lt_of_le hk with h0 | h0
    · rw [← h0]; simp [rnd_zero]
    · refine rel ?_
      have k1 : (1 : ℚ) ≤ k := by exact_mod_cast h0
      have k2 : q ≤ k * q := by nlinarith
      generalize (2 : ℚ) ^ (-326 : ℤ) = z at *
      generalize (2 : ℚ) ^ (-1022 : ℤ) = y at *
      linarith
  have hkq : (k : ℚ) * q ≤ 2 * (N * h) := by nlinarith
  have hkq0 : 0 ≤ (k : ℚ) * q := mul_nonneg hk0 (by linarith)
  have hbig2 : 2 * (N * h) ≤ 2 ^ (302 : ℤ) := by
    have e : (2 : ℚ) ^ (302 : ℤ) = 2 * 2 ^ (301 : ℤ) := by
      rw [show (302 : ℤ) = 1 + 301 by norm_num, zpow_add₀ (by norm_num)]; norm_num
    rw [e, ← hWh]
    linarith
  have b3 : |(k : ℚ) * q| ≤ 2 ^ (302 : ℤ) := by
    rw [abs_of_nonneg hkq0]
    exact hkq.trans hbig2
  obtain ⟨m, hm⟩ : ∃ m, m = rnd (k * q) := ⟨_, rfl⟩
  rw [← hm] at e4
  have e5 : |m - k * h| ≤ 5 * u * (k * h) := by
    have k1 : u * (k * q) ≤ 2 * (u * (k * h)) := by
      have : u * (k * q) ≤ u * (k * (2 * h)) := by gcongr
      linarith
    have k2 : |(k : ℚ) * q - k * h| ≤ 3 * (u * (k * h)) := by
      rw [← mul_sub, abs_mul, abs_of_nonneg hk0]
      calc (k : ℚ) * |q - h| ≤ k * (3 * u * h) := mul_le_mul_of_nonneg_left e3 hk0
        _ = _ := by ring
    rw [abs_le] at e4 k2 ⊢
    constructor <;> linarith [e4.1, e4.2, k2.1, k2.2]
  have hkh : (k : ℚ) * h ≤ N * h := mul_le_mul_of_nonneg_right hkN0 hh0.le
  have hkh0 : 0 ≤ (k : ℚ) * h := by positivity
  have m1 : |m| ≤ 2 * (N * h) := by
    have : 5 * u * (k * h) ≤ 1 / 100000 * (k * h) := mul_le_mul_of_nonneg_right (by linarith) hkh0
    rw [abs_le] at e5 ⊢
    constructor <;> linarith [e5.1, e5.2]
  -- the sum
  have b4 : |A + m| ≤ 2 ^ (303 : ℤ) := by
    have e : (2 : ℚ) ^ (303 : ℤ) = 2 * 2 ^ (302 : ℤ) := by
      rw [show (303 : ℤ) = 1 + 302 by norm_num, zpow_add₀ (by norm_num)]; norm_num
    have e' : (2 : ℚ) ^ (300 : ℤ) ≤ 2 ^ (302 : ℤ) := zpow_le_zpow_right₀ (by norm_num) (by norm_num)
    rw [e]
    refine (abs_add_le _ _).trans ?_
    rw [two_mul]
    exact add_le_add (hA.trans e') (m1.trans hbig2)
  have hη : (2 : ℚ) ^ (-1075 : ℤ) ≤ u * h := by
    rw [hu, show (1 : ℚ) / 2 ^ 53 = 2 ^ (-53 : ℤ) by norm_num]
    calc (2 : ℚ) ^ (-1075 : ℤ) ≤ 2 ^ (-53 + -326 : ℤ) := zpow_le_zpow_right₀ (by norm_num) (by norm_num)
      _ = 2 ^ (-53 : ℤ) * 2 ^ (-326 : ℤ) := zpow_add₀ (by norm_num) _ _
      _ ≤ _ := mul_le_mul_of_nonneg_left hh1 (two_pos _).le
  have e6 : |rnd (A + m) - (A + m)| ≤ u * (|A| + 2 * (N * h)) + u * h := by
    have := rnd_err_le (x := A + m) (B := |A| + 2 * (N * h)) ((abs_add_le _ _).trans (by linarith))
    rw [← hu] at this
    linarith
  refine ⟨rnd (A + m), ?_, ?_⟩
  · unfold extentLimit Binary64.sub Binary64.div Binary64.mul Binary64.add
    rw [← hWd, fl_le b1 (by norm_num), ← hw]
    show (if (N : ℚ) = 0 then none else fl (w / N)) >>= _ = _
    rw [if_neg (by linarith), fl_le b2 (by norm_num), ← hq]
    show fl (k * q) >>= _ = _
    rw [fl_le b3 (by norm_num), ← hm]
    show fl (A + m) = _
    rw [fl_le b4 (by norm_num)]
  · have k1 : u * |A| ≤ u * (K * h) := mul_le_mul_of_nonneg_left hK hu0.le
    have k2 : u * (k * h) ≤ u * (N * h) := mul_le_mul_of_nonneg_left hkh hu0.le
    have k3 : u * h ≤ u * (N * h) := mul_le_mul_of_nonneg_left (le_mul_of_one_le_left hh0.le hN0) hu0.le
    have e7 : (8 * N + K) / 2 ^ 53 * h = 8 * (u * (N * h)) + u * (K * h) := by rw [hu]; ring
    rw [e7]
    rw [abs_le] at e5 e6 ⊢
    constructor <;> linarith [e5.1, e5.2, e6.1, e6.2]

/-- position of cell `i` in the field with the inner cells `a` to `b` and the limits `l`, `r` of the local extent -/
theorem local_position {N a b g i : ℤ} {A B K h l r : ℚ} {stagger : Bool} (hh : h = (B - A) / N) (hN : 1 ≤ N) (hN2 : N ≤ 2 ^ 26)
    (ha : 0 ≤ a) (hab : a ≤ b) (hb : b < N) (hg0 : 0 ≤ g) (hg : g ≤ b - a + 1) (hi1 : a - g ≤ i) (hi2 : i ≤ b + g)
    (hA : |A| ≤ 2 ^ (300 : ℤ)) (hB : |B| ≤ 2 ^ (300 : ℤ)) (hW : 2 ^ (-300 : ℤ) ≤ B - A) (hK : |A| ≤ K * h) (hK2 : K ≤ 2 ^ 40)
    (hl : |l - (A + a * h)| ≤ (8 * N + K) / 2 ^ 53 * h) (hr : |r - (A + (b + 1) * h)| ≤ (8 * N + K) / 2 ^ 53 * h) :
    ∃ pos, indexToPosition (a - g) (b + g) g stagger l r i = some pos ∧
      |pos - (A + (i + halfIf stagger) * h)| ≤ (N + K) / 2 ^ 47 * h := by
  have hN0 : (1 : ℚ) ≤ N := by exact_mod_cast hN
  have hN20 : (N : ℚ) ≤ 2 ^ 26 := by exact_mod_cast hN2
  have ha0 : (0 : ℚ) ≤ a := by exact_mod_cast ha
  have hb0 : (b : ℚ) + 1 ≤ N := by exact_mod_cast hb
  obtain ⟨W, hWd⟩ : ∃ W, W = B - A := ⟨_, rfl⟩
  rw [← hWd] at hW hh
  have hW0 : 0 < W := (two_pos _).trans_le hW
  have hh0 : 0 < h := by rw [hh]; positivity
  have hWh : W = N * h := by rw [hh]; field_simp
  have hh1 : 2 ^ (-326 : ℤ) ≤ h := by
    rw [hh, le_div_iff₀ (by linarith)]
    refine le_trans ?_ hW
    calc (2 : ℚ) ^ (-326 : ℤ) * N ≤ 2 ^ (-326 : ℤ) * 2 ^ (26 : ℤ) :=
          mul_le_mul_of_nonneg_left (hN20.trans (by norm_num)) (two_pos _).le
      _ = 2 ^ (-300 : ℤ) := by rw [← zpow_add₀ (by norm_num)]; norm_num
  have hK0 : 0 ≤ K := by
    by_contra hc
    have := mul_neg_of_neg_of_pos (not_le.mp hc) hh0
    have := abs_nonneg A
    linarith
  obtain ⟨ε, hε⟩ : ∃ ε : ℚ, ε = (8 * N + K) / 2 ^ 53 := ⟨_, rfl⟩
  rw [← hε] at hl hr
  have hε0 : 0 ≤ ε := by rw [hε]; positivity
  have hε1 : ε ≤ 1 / 1000 := by
    rw [hε, div_le_iff₀ (by norm_num)]
    linarith
  obtain ⟨w, hwd⟩ : ∃ w : ℚ, w = b - a + 1 := ⟨_, rfl⟩
  have hw1 : 1 ≤ w := by
    rw [hwd]
    have : (a : ℚ) ≤ b := by exact_mod_cast hab
    linarith
  have hwN : w ≤ N := by rw [hwd]; linarith
  have hεh : ε * h ≤ 1 / 1000 * h := mul_le_mul_of_nonneg_right hε1 hh0.le
  have hεh0 : 0 ≤ ε * h := by positivity
  rw [abs_le] at hl hr
  have hlr : |r - l - w * h| ≤ 2 * (ε * h) := by
    have : w * h = (b + 1) * h - a * h := by rw [hwd]; ring
    rw [this, abs_le]
    constructor <;> linarith [hl.1, hl.2, hr.1, hr.2]
  have hwh : h ≤ w * h := le_mul_of_one_le_left hh0.le hw1
  have hwNh : w * h ≤ N * h := mul_le_mul_of_nonneg_right hwN hh0.le
  have hah : a * h ≤ N * h := mul_le_mul_of_nonneg_right (by
    have : (a : ℚ) ≤ b := by exact_mod_cast hab
    linarith) hh0.le
  have hah0 : 0 ≤ a * h := by positivity
  have hA' := abs_le.mp hA
  have hB' := abs_le.mp hB
  have hA2 := abs_le.mp hK
  have z400 : 2 ^ (300 : ℤ) * 8 ≤ (2 : ℚ) ^ (400 : ℤ) := by
    rw [show (8 : ℚ) = 2 ^ (3 : ℤ) by norm_num, ← zpow_add₀ (by norm_num)]
    exact zpow_le_zpow_right₀ (by norm_num) (by norm_num)
  have z0 : (0 : ℚ) < 2 ^ (300 : ℤ) := two_pos _
  have hNh : N * h ≤ 2 * 2 ^ (300 : ℤ) := by
    rw [← hWh, hWd]
    generalize (2 : ℚ) ^ (300 : ℤ) = z at *
    linarith [hA'.1, hB'.2]
  have hb1h : ((b : ℚ) + 1) * h = a * h + w * h := by rw [hwd]; ring
  have bl : |l| ≤ 2 ^ (400 : ℤ) := by
    refine le_trans ?_ z400
    clear z400 hh1 hW
    generalize (2 : ℚ) ^ (300 : ℤ) = z at *
    rw [abs_le]
    constructor <;> linarith [hl.1, hl.2, hA'.1, hA'.2]
  have hbN : ((b : ℚ) + 1) * h ≤ N * h := mul_le_mul_of_nonneg_right hb0 hh0.le
  have br : |r| ≤ 2 ^ (400 : ℤ) := by
    refine le_trans ?_ z400
    clear z400 hh1 hW
    generalize (2 : ℚ) ^ (300 : ℤ) = z at *
    rw [abs_le]
    constructor <;> linarith [hr.1, hr.2, hA'.1, hA'.2]
  have hlr' := abs_le.mp hlr
  have bw : 2 ^ (-500 : ℤ) ≤ r - l := by
    have h1 : (2 : ℚ) ^ (-500 : ℤ) ≤ 2 ^ (-326 : ℤ) / 2 := by
      rw [show (2 : ℚ) ^ (-326 : ℤ) / 2 = 2 ^ (-327 : ℤ) by
        rw [show (-326 : ℤ) = -327 + 1 by norm_num, zpow_add₀ (by norm_num)]; norm_num]
      exact zpow_le_zpow_right₀ (by norm_num) (by norm_num)
    generalize (2 : ℚ) ^ (-500 : ℤ) = y at *
    generalize (2 : ℚ) ^ (-326 : ℤ) = x at *
    linarith [hlr'.1]
  have hs := abs_le.mp (halfIf_abs stagger)
  have hs0 : 0 ≤ halfIf stagger := by unfold halfIf; split_ifs <;> norm_num
  have hcells : w = ((b + g - (a - g) - 2 * g + 1 : ℤ) : ℚ) := by rw [hwd]; push_cast; ring
  have ht : ((i - (a - g) : ℤ) : ℚ) + halfIf stagger - g = i - a + halfIf stagger := by push_cast; ring
  obtain ⟨t, htd⟩ : ∃ t : ℚ, t = i - a + halfIf stagger := ⟨_, rfl⟩
  have hg' : (g : ℚ) ≤ w := by rw [hwd]; exact_mod_cast hg
  have hi1' : (a : ℚ) - g ≤ i := by exact_mod_cast hi1
  have hi2' : (i : ℚ) ≤ b + g := by exact_mod_cast hi2
  have htT : |t| ≤ 2 * w := by
    rw [htd, abs_le]
    constructor <;> linarith [hs.2]
  obtain ⟨pos, hpos, -, he⟩ := position_error (lo := a - g) (hi := b + g) (ghost := g) (stagger := stagger) (domLo := l) (domHi := r) (index := i)
    (T := 2 * w) (N := w) hcells hw1 (by norm_num; linarith) (by linarith) (by norm_num; linarith) (by rw [abs_le]; constructor <;> omega)
    (by rw [abs_le]; constructor <;> omega) bl br bw (by rw [ht, ← htd]; exact htT)
  rw [ht, ← htd] at he
  refine ⟨pos, hpos, ?_⟩
  have hw0 : w ≠ 0 := by linarith
  have c1 : (r - l) * (2 * w) / w = 2 * (r - l) := by field_simp
  rw [c1] at he
  have c2 : |l| ≤ K * h + N * h + ε * h := by
    rw [abs_le]
    constructor <;> linarith [hl.1, hl.2, hA2.1, hA2.2]
  have c3 : |(r - l) * t / w + l - (A + (i + halfIf stagger) * h)| ≤ 5 * (ε * h) := by
    have e : (r - l) * t / w + l - (A + (i + halfIf stagger) * h) = (r - l - w * h) * (t / w) + (l - (A + a * h)) := by
      rw [htd]; field_simp; ring
    rw [e]
    refine (abs_add_le _ _).trans ?_
    have e2 : |t / w| ≤ 2 := by
      rw [abs_div, abs_of_pos (lt_of_lt_of_le one_pos hw1), div_le_iff₀ (lt_of_lt_of_le one_pos hw1)]
      exact htT
    have e3 : |(r - l - w * h) * (t / w)| ≤ 2 * (ε * h) * 2 := by
      rw [abs_mul]
      exact mul_le_mul hlr e2 (abs_nonneg _) (by linarith)
    have e4 : |l - (A + a * h)| ≤ ε * h := abs_le.mpr hl
    linarith
  have c4 : |pos - (A + (i + halfIf stagger) * h)| ≤
      5 / 2 ^ 53 * (2 * (r - l) + |l|) + 5 * (ε * h) := by
    have : pos - (A + (i + halfIf stagger) * h) =
        (pos - ((r - l) * t / w + l)) + ((r - l) * t / w + l - (A + (i + halfIf stagger) * h)) := by ring
    rw [this]
    exact (abs_add_le _ _).trans (add_le_add he c3)
  refine c4.trans ?_
  have c5 : 2 * (r - l) + |l| ≤ 3 * (N * h) + K * h + h := by linarith [hlr'.2]
  have c6 : 5 / 2 ^ 53 * (2 * (r - l) + |l|) ≤ 5 / 2 ^ 53 * (3 * (N * h) + K * h + h) := mul_le_mul_of_nonneg_left c5 (by norm_num)
  have hhN : h ≤ N * h := le_mul_of_one_le_left hh0.le hN0
  have hKh : 0 ≤ K * h := by positivity
  have c7 : ε * h = (8 * (N * h) + K * h) / 2 ^ 53 := by rw [hε]; ring
  have c8 : (N + K) / 2 ^ 47 * h = (N * h + K * h) / 2 ^ 47 := by ring
  rw [c7, c8]
  linarith

end Schnek.Lemma.ExtentDouble
