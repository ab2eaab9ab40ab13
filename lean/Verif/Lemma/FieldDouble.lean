import Verif.Model.FieldDouble
import Verif.Lemma.Binary64

/-!
# Lemmas about conversions between positions and indices in `double`
-/

namespace Schnek.Lemma.Binary64

open Schnek.Binary64

/-- no overflow -/
theorem fl_le {x : ℚ} {e : ℤ} (h : |x| ≤ 2 ^ e) (he : e ≤ 1023) : fl x = some (rnd x) :=
  fl_some (h.trans (zpow_le_zpow_right₀ (by norm_num) he))

/-- the error of rounding a value that is not too large -/
theorem rnd_err_le {x B : ℚ} (h : |x| ≤ B) : |rnd x - x| ≤ B * (1 / 2 ^ 53) + 2 ^ (-1075 : ℤ) := by
  refine (rnd_err x).trans ?_
  have : |x| / 2 ^ 53 ≤ B / 2 ^ 53 := div_le_div_of_nonneg_right h (by norm_num)
  rw [mul_one_div]
  linarith

theorem halfIf_abs (s : Bool) : |halfIf s| ≤ 1 / 2 := by
  cases s <;> simp [halfIf]

/-- the quotient `(pos - domLo) * N / (domHi - domLo)` -/
theorem quotient_error {a b w c p N W u η : ℚ} (hu : u = 1 / 2 ^ 53) (hη : 0 ≤ η) (hη1 : η ≤ u / 1000) (hN : 1 ≤ N) (hW : 0 < W)
    (hsmall : 3 * η * N / W ≤ u ^ 2) {M : ℚ} (hM : 1 ≤ M) (hy : |p * N / W| ≤ M)
    (h1 : |a - p| ≤ |p| * u + η) (h2 : |b - a * N| ≤ |a * N| * u + η) (h3 : |w - W| ≤ W * u + η) (h4 : |c - b / w| ≤ |b / w| * u + η) :
    0 < w ∧ |b / w| ≤ 2 * M ∧ |c - p * N / W| ≤ 5 * u * M := by
  have hu0 : 0 < u := by rw [hu]; positivity
  have hu1 : u ≤ 1 / 1000000 := by rw [hu]; norm_num
  set y := p * N / W with hy'
  have hN0 : 0 < N := by linarith
  have hηW : η / W ≤ u ^ 2 / 3 := by
    have : 3 * η / W ≤ 3 * η * N / W := div_le_div_of_nonneg_right (by nlinarith) hW.le
    have e : 3 * η / W = 3 * (η / W) := by ring
    linarith
  -- b / W
  have hb : |b / W - y| ≤ (2 * u + 2 * u ^ 2) * M := by
    have e1 : |a * N| ≤ (|p| * (1 + u) + η) * N := by
      rw [abs_mul, abs_of_pos hN0]
      refine mul_le_mul_of_nonneg_right ?_ hN0.le
      have := abs_sub_abs_le_abs_sub a p
      linarith
    have e2 : |b - p * N| ≤ (|p| * u + η) * N + ((|p| * (1 + u) + η) * N * u + η) := by
      have t1 : b - p * N = (b - a * N) + (a - p) * N := by ring
      have t2 : |(a - p) * N| ≤ (|p| * u + η) * N := by
        rw [abs_mul, abs_of_pos hN0]
        exact mul_le_mul_of_nonneg_right h1 hN0.le
      rw [t1]
      refine (abs_add_le _ _).trans ?_
      have := mul_le_mul_of_nonneg_right e1 hu0.le
      linarith
    have e3 : |b / W - y| = |b - p * N| / W := by
      rw [hy', ← sub_div, abs_div, abs_of_pos hW]
    have hyy : |p| * N / W = |y| := by rw [hy', abs_div, abs_mul, abs_of_pos hN0, abs_of_pos hW]
    rw [e3]
    have e4 : ((|p| * u + η) * N + ((|p| * (1 + u) + η) * N * u + η)) / W
        = (|p| * N / W) * (2 * u + u ^ 2) + (η * N / W) * (1 + u) + η / W := by
      field_simp
      ring
    have e5 : η * N / W ≤ u ^ 2 / 3 := by
      have e : 3 * η * N / W = 3 * (η * N / W) := by ring
      linarith
    have e6 : 0 ≤ η * N / W := by positivity
    calc |b - p * N| / W ≤ _ := div_le_div_of_nonneg_right e2 hW.le
      _ = |y| * (2 * u + u ^ 2) + (η * N / W) * (1 + u) + η / W := by rw [e4, hyy]
      _ ≤ M * (2 * u + u ^ 2) + u ^ 2 := by
        have k1 := mul_le_mul_of_nonneg_right hy (by positivity : 0 ≤ 2 * u + u ^ 2)
        have k2 : (η * N / W) * (1 + u) ≤ u ^ 2 / 3 * 2 := mul_le_mul e5 (by linarith) (by linarith) (by positivity)
        linarith
      _ ≤ _ := by nlinarith [sq_nonneg u]
  -- w / W
  have hw : |w / W - 1| ≤ u + u ^ 2 := by
    have e : w / W - 1 = (w - W) / W := by field_simp
    rw [e, abs_div, abs_of_pos hW, div_le_iff₀ hW]
    have : η ≤ u ^ 2 / 3 * W := by rwa [div_le_iff₀ hW] at hηW
    nlinarith [sq_nonneg u]
  set ω := w / W with hω
  have hω1 : 1 - u - u ^ 2 ≤ ω := by
    have := (abs_le.mp hw).1
    linarith
  have hu2 : u ^ 2 ≤ u / 1000000 := by nlinarith
  have hω0 : 0 < ω := by linarith
  have hw0 : 0 < w := by
    have : w = ω * W := by rw [hω]; field_simp
    rw [this]
    positivity
  have hbw : b / w = (b / W) / ω := by rw [hω]; field_simp
  have hd : |b / w - y| ≤ 7 / 2 * u * M := by
    have e : b / w - y = ((b / W - y) - y * (ω - 1)) / ω := by
      rw [hbw]
      field_simp
      ring
    rw [e, abs_div, abs_of_pos hω0, div_le_iff₀ hω0]
    have k1 : |y * (ω - 1)| ≤ M * (u + u ^ 2) := by
      rw [abs_mul]
      exact mul_le_mul hy hw (abs_nonneg _) (by linarith)
    have k2 := abs_sub (b / W - y) (y * (ω - 1))
    have k3 : (2 * u + 2 * u ^ 2) * M + M * (u + u ^ 2) ≤ 7 / 2 * u * M * (1 - u - u ^ 2) := by
      have : 2 * u + 2 * u ^ 2 + (u + u ^ 2) ≤ 7 / 2 * u * (1 - u - u ^ 2) := by nlinarith
      nlinarith
    have k4 : 7 / 2 * u * M * (1 - u - u ^ 2) ≤ 7 / 2 * u * M * ω := mul_le_mul_of_nonneg_left hω1 (by positivity)
    linarith
  have hq : |b / w| ≤ M + 7 / 2 * u * M := by
    have := abs_sub_abs_le_abs_sub (b / w) y
    linarith
  have hq2 : |b / w| ≤ 1001 / 1000 * M := by nlinarith
  refine ⟨hw0, by linarith, ?_⟩
  have t := abs_sub_le c (b / w) y
  have : |b / w| * u ≤ 1001 / 1000 * M * u := mul_le_mul_of_nonneg_right hq2 hu0.le
  nlinarith

theorem eta_small : (2 : ℚ) ^ (-1075 : ℤ) ≤ 1 / 2 ^ 53 / 1000 := by
  have : (2 : ℚ) ^ (-1075 : ℤ) ≤ 2 ^ (-100 : ℤ) := zpow_le_zpow_right₀ (by norm_num) (by norm_num)
  refine this.trans ?_
  norm_num

theorem abs_rnd_le {x : ℚ} : |rnd x| ≤ 2 * |x| + 1 := by
  have h := rnd_err x
  have h1 := abs_sub_abs_le_abs_sub (rnd x) x
  have h2 := eta_small
  have h3 : |x| / 2 ^ 53 ≤ |x| := div_le_self (abs_nonneg _) (by norm_num)
  have h4 : (1 : ℚ) / 2 ^ 53 / 1000 ≤ 1 := by norm_num
  linarith

theorem xnorm_error {lo hi ghost : ℤ} {stagger : Bool} {domLo domHi pos M : ℚ} {N : ℚ} (hN' : N = ((hi - lo - 2 * ghost + 1 : ℤ) : ℚ))
    (hN : 1 ≤ N) (hN2 : N ≤ 2 ^ 40) (hM : 1 ≤ M) (hM2 : M ≤ 2 ^ 40)
    (hp : |pos| ≤ 2 ^ (500 : ℤ)) (hl : |domLo| ≤ 2 ^ (500 : ℤ)) (hh : |domHi| ≤ 2 ^ (500 : ℤ)) (hW : 2 ^ (-500 : ℤ) ≤ domHi - domLo)
    (hy : |(pos - domLo) * N / (domHi - domLo)| ≤ M) (hg : |(ghost : ℚ)| ≤ M) (hlo : |(lo : ℚ)| ≤ M) :
    ∃ x, xnorm lo hi ghost stagger domLo domHi pos = some x ∧
      |x - ((pos - domLo) * N / (domHi - domLo) - halfIf stagger + ghost + lo)| ≤ 16 * M / 2 ^ 53 := by
  obtain ⟨p, hpd⟩ : ∃ p, p = pos - domLo := ⟨_, rfl⟩
  obtain ⟨W, hWd⟩ : ∃ W, W = domHi - domLo := ⟨_, rfl⟩
  rw [← hpd, ← hWd] at hy ⊢
  rw [← hWd] at hW
  obtain ⟨u, hu⟩ : ∃ u : ℚ, u = 1 / 2 ^ 53 := ⟨_, rfl⟩
  obtain ⟨η, hη⟩ : ∃ η : ℚ, η = 2 ^ (-1075 : ℤ) := ⟨_, rfl⟩
  have hη0 : 0 < η := by rw [hη]; exact two_pos _
  have hη1 : η ≤ u / 1000 := by rw [hu, hη]; exact eta_small
  have err : ∀ {x B : ℚ}, |x| ≤ B → |rnd x - x| ≤ B * u + η := fun h => by rw [hu, hη]; exact rnd_err_le h
  have hu0 : 0 < u := by rw [hu]; positivity
  have hu1 : u ≤ 1 / 1000000 := by rw [hu]; norm_num
  have hW0 : 0 < W := (two_pos _).trans_le hW
  have h501 : (2 : ℚ) ^ (501 : ℤ) = 2 * 2 ^ (500 : ℤ) := by
    rw [show (501 : ℤ) = 1 + 500 by norm_num, zpow_add₀ (by norm_num), zpow_one]
  have hpos500 : (1 : ℚ) ≤ 2 ^ (500 : ℤ) := one_le_zpow₀ (by norm_num) (by norm_num)
  have ha : |p| ≤ 2 ^ (501 : ℤ) := by
    have := abs_sub pos domLo
    rw [h501, hpd]; linarith
  have hw : |W| ≤ 2 ^ (501 : ℤ) := by
    have := abs_sub domHi domLo
    rw [h501, hWd]; linarith
  have hs : 3 * η * N / W ≤ u ^ 2 := by
    have h1 : 3 * η * N / W ≤ 3 * η * 2 ^ 40 / 2 ^ (-500 : ℤ) := by
      refine div_le_div₀ (by positivity) ?_ (two_pos _) hW
      exact mul_le_mul_of_nonneg_left hN2 (by positivity)
    have h2 : 3 * η * 2 ^ 40 / 2 ^ (-500 : ℤ) ≤ 2 ^ (-500 : ℤ) := by
      rw [div_le_iff₀ (two_pos _), ← zpow_add₀ (by norm_num), hη]
      have : (3 : ℚ) * 2 ^ (-1075 : ℤ) * 2 ^ 40 ≤ 2 ^ (2 : ℤ) * 2 ^ (-1075 : ℤ) * 2 ^ (40 : ℤ) := by
        have h := two_pos (-1075)
        have e : (2 : ℚ) ^ (40 : ℤ) = 2 ^ 40 := rfl
        rw [e]
        refine mul_le_mul_of_nonneg_right ?_ (by norm_num)
        have e2 : (2 : ℚ) ^ (2 : ℤ) = 4 := by norm_num
        rw [e2]
        linarith
      refine this.trans ?_
      rw [← zpow_add₀ (by norm_num), ← zpow_add₀ (by norm_num)]
      exact zpow_le_zpow_right₀ (by norm_num) (by norm_num)
    have h3 : (2 : ℚ) ^ (-500 : ℤ) ≤ u ^ 2 := by
      have : (2 : ℚ) ^ (-500 : ℤ) ≤ 2 ^ (-106 : ℤ) := zpow_le_zpow_right₀ (by norm_num) (by norm_num)
      refine this.trans (le_of_eq ?_)
      rw [hu]; norm_num
    exact h1.trans (h2.trans h3)
  have e1 := err (le_refl |p|)
  have e2 := err (le_refl |rnd p * N|)
  have e3 := err (le_refl |W|)
  have e4 := err (le_refl |rnd (rnd p * N) / rnd W|)
  rw [abs_of_pos hW0] at e3
  obtain ⟨hw0, hq, hc⟩ := quotient_error hu hη0.le hη1 hN hW0 hs hM hy e1 e2 e3 e4
  have h40 : (2 : ℚ) ^ 40 = 2 ^ (40 : ℤ) := rfl
  have h45 : (2 : ℚ) ^ (45 : ℤ) = 32 * 2 ^ 40 := by norm_num
  have f1 : sub pos domLo = some (rnd p) := by
    rw [hpd] at ha ⊢
    exact fl_le ha (by norm_num)
  have f2 : mul (rnd p) N = some (rnd (rnd p * N)) := by
    refine fl_le (e := 503 + 40) ?_ (by norm_num)
    rw [abs_mul, abs_of_pos (by linarith : 0 < N), zpow_add₀ (by norm_num)]
    refine mul_le_mul ?_ hN2 (by linarith) (by positivity)
    have := rnd_abs_le (by norm_num) ha
    exact this.trans (zpow_le_zpow_right₀ (by norm_num) (by norm_num))
  have f3 : sub domHi domLo = some (rnd W) := by
    rw [hWd] at hw ⊢
    exact fl_le hw (by norm_num)
  obtain ⟨c, hcd⟩ : ∃ c, c = rnd (rnd (rnd p * N) / rnd W) := ⟨_, rfl⟩
  rw [← hcd] at hc
  have f4 : div (rnd (rnd p * N)) (rnd W) = some c := by
    rw [div, if_neg hw0.ne', hcd]
    refine fl_le (e := 45) ?_ (by norm_num)
    rw [h45]; linarith
  obtain ⟨y, hyd⟩ : ∃ y, y = p * N / W := ⟨_, rfl⟩
  rw [← hyd] at hc hy ⊢
  have hMu : u * M ≤ M / 1000000 := by nlinarith
  have hcM : |c| ≤ 1001 / 1000 * M := by
    have := abs_sub_abs_le_abs_sub c y
    linarith
  have hsg := halfIf_abs stagger
  have g5 : |c - halfIf stagger| ≤ 16 / 10 * M := by
    have := abs_sub c (halfIf stagger)
    linarith
  have f5 : sub c (halfIf stagger) = some (rnd (c - halfIf stagger)) := fl_le (e := 45) (by rw [h45]; linarith) (by norm_num)
  have e5 := err g5
  obtain ⟨d, hdd⟩ : ∃ d, d = rnd (c - halfIf stagger) := ⟨_, rfl⟩
  rw [← hdd] at e5 f5
  have hηM : η ≤ u * M / 1000 := by nlinarith
  have g6 : |d + ghost| ≤ 27 / 10 * M := by
    have t1 := abs_add_le d ghost
    have t2 := abs_sub_abs_le_abs_sub d (c - halfIf stagger)
    have t3 : 16 / 10 * M * u = 16 / 10 * (u * M) := by ring
    linarith
  have f6 : add d ghost = some (rnd (d + ghost)) := fl_le (e := 45) (by rw [h45]; linarith) (by norm_num)
  have e6 := err g6
  obtain ⟨e, hed⟩ : ∃ e, e = rnd (d + ghost) := ⟨_, rfl⟩
  rw [← hed] at e6 f6
  have g7 : |e + lo| ≤ 38 / 10 * M := by
    have t1 := abs_add_le e lo
    have t2 := abs_sub_abs_le_abs_sub e (d + ghost)
    have t3 : 27 / 10 * M * u = 27 / 10 * (u * M) := by ring
    linarith
  have f7 : add e lo = some (rnd (e + lo)) := fl_le (e := 45) (by rw [h45]; linarith) (by norm_num)
  have e7 := err g7
  refine ⟨rnd (e + lo), ?_, ?_⟩
  · unfold xnorm
    rw [← hN', f1]
    show (mul (rnd p) N).bind _ = _
    rw [f2, f3]
    show (div _ _).bind _ = _
    rw [f4]
    show (sub _ _).bind _ = _
    rw [f5]
    show (add _ _).bind _ = _
    rw [f6]
    exact f7
  · have t : rnd (e + lo) - (y - halfIf stagger + ghost + lo)
        = (rnd (e + lo) - (e + lo)) + (e - (d + ghost)) + (d - (c - halfIf stagger)) + (c - y) := by ring
    rw [t]
    have t1 := abs_add_le ((rnd (e + lo) - (e + lo)) + (e - (d + ghost)) + (d - (c - halfIf stagger))) (c - y)
    have t2 := abs_add_le ((rnd (e + lo) - (e + lo)) + (e - (d + ghost))) (d - (c - halfIf stagger))
    have t3 := abs_add_le (rnd (e + lo) - (e + lo)) (e - (d + ghost))
    have k5 : 16 / 10 * M * u = 16 / 10 * (u * M) := by ring
    have k6 : 27 / 10 * M * u = 27 / 10 * (u * M) := by ring
    have k7 : 38 / 10 * M * u = 38 / 10 * (u * M) := by ring
    have k8 : 16 * M / 2 ^ 53 = 16 * (u * M) := by rw [hu]; ring
    have k9 : 5 * u * M = 5 * (u * M) := by ring
    have k10 : 0 < u * M := by positivity
    rw [k8]
    linarith

theorem isFormat_half {k : ℤ} (hk : |k| ≤ 2 ^ 53) : IsFormat ((k : ℚ) / 2) := by
  have := isFormat_of_le (e := -1) hk (by norm_num)
  rwa [zpow_neg_one, ← div_eq_mul_inv] at this

theorem fl_format {x : ℚ} (h : IsFormat x) {e : ℤ} (h1 : |x| ≤ 2 ^ e) (he : e ≤ 1023) : fl x = some x := by
  rw [fl_le h1 he, rnd_of_format h]

/-- `index - lo + 0.5*stagger - ghost` has no rounding error -/
theorem centre_exact {lo ghost index : ℤ} {stagger : Bool} (h1 : |index - lo| ≤ 2 ^ 40) (h2 : |ghost| ≤ 2 ^ 40) :
    add ((index - lo : ℤ) : ℚ) (halfIf stagger) = some (((index - lo : ℤ) : ℚ) + halfIf stagger) ∧
    sub (((index - lo : ℤ) : ℚ) + halfIf stagger) ghost = some (((index - lo : ℤ) : ℚ) + halfIf stagger - ghost) := by
  obtain ⟨s, hs, hs'⟩ : ∃ s : ℤ, halfIf stagger = (s : ℚ) / 2 ∧ |s| ≤ 1 := by
    cases stagger
    · exact ⟨0, by simp [halfIf], by norm_num⟩
    · exact ⟨1, by simp [halfIf], by norm_num⟩
  obtain ⟨k, hk⟩ : ∃ k, k = index - lo := ⟨_, rfl⟩
  rw [← hk] at h1 ⊢
  have e1 : (k : ℚ) + halfIf stagger = ((2 * k + s : ℤ) : ℚ) / 2 := by rw [hs]; push_cast; ring
  have e2 : (k : ℚ) + halfIf stagger - ghost = ((2 * k + s - 2 * ghost : ℤ) : ℚ) / 2 := by rw [hs]; push_cast; ring
  rw [abs_le] at h1 h2 hs'
  have b : ∀ j : ℤ, |j| ≤ 2 ^ 50 → |(j : ℚ) / 2| ≤ 2 ^ (50 : ℤ) := fun j hj => by
    rw [abs_div, abs_of_pos (by norm_num : (0 : ℚ) < 2)]
    have : |(j : ℚ)| ≤ 2 ^ 50 := by exact_mod_cast hj
    have e : (2 : ℚ) ^ (50 : ℤ) = 2 ^ 50 := rfl
    rw [e]
    have := abs_nonneg (j : ℚ)
    linarith
  have b1 : |2 * k + s| ≤ 2 ^ 50 := by rw [abs_le]; constructor <;> omega
  have b2 : |2 * k + s - 2 * ghost| ≤ 2 ^ 50 := by rw [abs_le]; constructor <;> omega
  constructor
  · rw [add, e1]
    exact fl_format (isFormat_half (b1.trans (by norm_num))) (b _ b1) (by norm_num)
  · rw [sub, e2]
    exact fl_format (isFormat_half (b2.trans (by norm_num))) (b _ b2) (by norm_num)

/-- errors add up -/
theorem position_error_aux {w m q W N t T u η D : ℚ} (hu0 : 0 < u) (hu1 : u ≤ 1 / 1000000) (hη : 0 ≤ η) (hW : 0 < W) (hN : 1 ≤ N)
    (hT : 1 ≤ T) (ht : |t| ≤ T) (hs1 : η ≤ u ^ 2 * W) (hs2 : η ≤ u ^ 2 * (W * T / N))
    (h1 : |w - W| ≤ W * u + η) (h2 : |m - w * t| ≤ |w * t| * u + η) (h3 : |q - m / N| ≤ |m / N| * u + η) (hD : 0 ≤ D) :
    |m / N| ≤ 2 * (W * T / N) ∧ |q - W * t / N| ≤ 7 / 2 * u * (W * T / N) ∧
    (|q - W * t / N| + ((|q - W * t / N| + W * T / N + D) * u + η)) ≤ 5 * u * (W * T / N + D) := by
  have hN0 : 0 < N := by linarith
  obtain ⟨Z, hZ⟩ : ∃ Z, Z = W * T / N := ⟨_, rfl⟩
  rw [← hZ] at hs2 ⊢
  have hZ0 : 0 < Z := by rw [hZ]; positivity
  have hu2 : u ^ 2 ≤ u / 1000000 := by nlinarith
  have huZ : u ^ 2 * Z ≤ u * Z / 1000000 := by nlinarith
  have hw1 : |w| ≤ W * (1 + u + u ^ 2) := by
    have := abs_sub_abs_le_abs_sub w W
    rw [abs_of_pos hW] at this
    nlinarith
  have a1 : |w * t / N - W * t / N| ≤ (u + u ^ 2) * Z := by
    rw [← sub_div, ← sub_mul, abs_div, abs_mul, abs_of_pos hN0, hZ]
    rw [div_le_iff₀ hN0]
    have : |w - W| ≤ (u + u ^ 2) * W := by nlinarith
    have := mul_le_mul this ht (abs_nonneg _) (by positivity)
    have e : (u + u ^ 2) * (W * T / N) * N = (u + u ^ 2) * W * T := by field_simp
    rw [e]
    exact this
  have a2 : |w * t| ≤ (1 + u + u ^ 2) * (Z * N) := by
    have e : Z * N = W * T := by rw [hZ]; field_simp
    rw [e, abs_mul]
    have := mul_le_mul hw1 ht (abs_nonneg _) (by positivity)
    linarith
  have a3 : |m / N - w * t / N| ≤ (u + u ^ 2 + u ^ 3) * Z + u ^ 2 * Z := by
    rw [← sub_div, abs_div, abs_of_pos hN0, div_le_iff₀ hN0]
    have k1 := mul_le_mul_of_nonneg_right a2 hu0.le
    have k2 : η ≤ u ^ 2 * Z * N := by nlinarith [mul_pos (pow_pos hu0 2) hZ0]
    have e : ((u + u ^ 2 + u ^ 3) * Z + u ^ 2 * Z) * N = (1 + u + u ^ 2) * (Z * N) * u + u ^ 2 * Z * N := by ring
    rw [e]
    linarith
  have hu3 : u ^ 3 * Z ≤ u * Z / 1000000 := by
    have : u ^ 3 ≤ u ^ 2 := pow_le_pow_of_le_one hu0.le (by linarith) (by norm_num)
    nlinarith
  have huZ0 : 0 < u * Z := by positivity
  have a4 : |m / N - W * t / N| ≤ 21 / 10 * (u * Z) := by
    have := abs_sub_le (m / N) (w * t / N) (W * t / N)
    nlinarith
  have hz : |W * t / N| ≤ Z := by
    rw [abs_div, abs_mul, abs_of_pos hW, abs_of_pos hN0, hZ]
    exact div_le_div_of_nonneg_right (mul_le_mul_of_nonneg_left ht hW.le) hN0.le
  have huZ1 : u * Z ≤ Z / 1000000 := by nlinarith
  have a5 : |m / N| ≤ 1001 / 1000 * Z := by
    have := abs_sub_abs_le_abs_sub (m / N) (W * t / N)
    linarith
  have hη2 : η ≤ u * Z / 1000000 := hs2.trans huZ
  have a6 : |q - W * t / N| ≤ 32 / 10 * (u * Z) := by
    have k1 := abs_sub_le q (m / N) (W * t / N)
    have k2 := mul_le_mul_of_nonneg_right a5 hu0.le
    linarith
  refine ⟨by linarith, by linarith, ?_⟩
  have k1 : (|q - W * t / N| + Z + D) * u ≤ (1001 / 1000 * Z + D) * u :=
    mul_le_mul_of_nonneg_right (by linarith) hu0.le
  have k2 : 0 ≤ u * D := by positivity
  linarith

theorem position_error {lo hi ghost index : ℤ} {stagger : Bool} {domLo domHi T : ℚ} {N : ℚ}
    (hN' : N = ((hi - lo - 2 * ghost + 1 : ℤ) : ℚ))
    (hN : 1 ≤ N) (hN2 : N ≤ 2 ^ 40) (hT : 1 ≤ T) (hT2 : T ≤ 2 ^ 40) (hi1 : |index - lo| ≤ 2 ^ 40) (hg : |ghost| ≤ 2 ^ 40)
    (hl : |domLo| ≤ 2 ^ (400 : ℤ)) (hh : |domHi| ≤ 2 ^ (400 : ℤ)) (hW : 2 ^ (-500 : ℤ) ≤ domHi - domLo)
    (ht : |((index - lo : ℤ) : ℚ) + halfIf stagger - ghost| ≤ T) :
    ∃ x, indexToPosition lo hi ghost stagger domLo domHi index = some x ∧ |x| ≤ 2 ^ (500 : ℤ) ∧
      |x - ((domHi - domLo) * (((index - lo : ℤ) : ℚ) + halfIf stagger - ghost) / N + domLo)| ≤
        5 / 2 ^ 53 * ((domHi - domLo) * T / N + |domLo|) := by
  obtain ⟨c1, c2⟩ := centre_exact (stagger := stagger) hi1 hg
  obtain ⟨W, hWd⟩ : ∃ W, W = domHi - domLo := ⟨_, rfl⟩
  obtain ⟨t, htd⟩ : ∃ t, t = ((index - lo : ℤ) : ℚ) + halfIf stagger - ghost := ⟨_, rfl⟩
  rw [← hWd] at hW ⊢
  rw [← htd] at ht c2 ⊢
  obtain ⟨u, hu⟩ : ∃ u : ℚ, u = 1 / 2 ^ 53 := ⟨_, rfl⟩
  obtain ⟨η, hη⟩ : ∃ η : ℚ, η = 2 ^ (-1075 : ℤ) := ⟨_, rfl⟩
  have hη0 : 0 < η := by rw [hη]; exact two_pos _
  have err : ∀ {x B : ℚ}, |x| ≤ B → |rnd x - x| ≤ B * u + η := fun h => by rw [hu, hη]; exact rnd_err_le h
  have hu0 : 0 < u := by rw [hu]; positivity
  have hu1 : u ≤ 1 / 1000000 := by rw [hu]; norm_num
  have hW0 : 0 < W := (two_pos _).trans_le hW
  have hN0 : 0 < N := by linarith
  have hu2 : u ^ 2 = 2 ^ (-106 : ℤ) := by rw [hu]; norm_num
  have hWN : 2 ^ (-540 : ℤ) ≤ W * T / N := by
    rw [le_div_iff₀ hN0]
    calc (2 : ℚ) ^ (-540 : ℤ) * N ≤ 2 ^ (-540 : ℤ) * 2 ^ (40 : ℤ) := mul_le_mul_of_nonneg_left hN2 (two_pos _).le
      _ = 2 ^ (-500 : ℤ) := by rw [← zpow_add₀ (by norm_num)]; rfl
      _ ≤ W * T := by nlinarith
  have hs2 : η ≤ u ^ 2 * (W * T / N) := by
    calc η ≤ 2 ^ (-106 : ℤ) * 2 ^ (-540 : ℤ) := by
          rw [hη, ← zpow_add₀ (by norm_num)]
          exact zpow_le_zpow_right₀ (by norm_num) (by norm_num)
      _ ≤ _ := by rw [hu2]; exact mul_le_mul_of_nonneg_left hWN (two_pos _).le
  have hs1 : η ≤ u ^ 2 * W := by
    calc η ≤ 2 ^ (-106 : ℤ) * 2 ^ (-500 : ℤ) := by
          rw [hη, ← zpow_add₀ (by norm_num)]
          exact zpow_le_zpow_right₀ (by norm_num) (by norm_num)
      _ ≤ _ := by rw [hu2]; exact mul_le_mul_of_nonneg_left hW (two_pos _).le
  have e1 := err (le_refl |W|)
  have e2 := err (le_refl |rnd W * t|)
  have e3 := err (le_refl |rnd (rnd W * t) / N|)
  rw [abs_of_pos hW0] at e1
  obtain ⟨b1, b2, b3⟩ := position_error_aux hu0 hu1 hη0.le hW0 hN hT ht hs1 hs2 e1 e2 e3 (abs_nonneg domLo)
  have h401 : (2 : ℚ) ^ (401 : ℤ) = 2 * 2 ^ (400 : ℤ) := by
    rw [show (401 : ℤ) = 1 + 400 by norm_num, zpow_add₀ (by norm_num), zpow_one]
  have hw : |W| ≤ 2 ^ (401 : ℤ) := by
    have := abs_sub domHi domLo
    rw [h401, hWd]; linarith
  have hZ : W * T / N ≤ 2 ^ (441 : ℤ) := by
    rw [abs_of_pos hW0] at hw
    calc W * T / N ≤ W * T := div_le_self (by positivity) hN
      _ ≤ 2 ^ (401 : ℤ) * 2 ^ (40 : ℤ) := mul_le_mul hw hT2 (by linarith) (two_pos _).le
      _ = _ := by rw [← zpow_add₀ (by norm_num)]; rfl
  have h450 : 8 * (2 : ℚ) ^ (441 : ℤ) = 2 ^ (444 : ℤ) := by
    rw [show (444 : ℤ) = 3 + 441 by norm_num, zpow_add₀ (by norm_num)]; norm_num
  have f1 : sub domHi domLo = some (rnd W) := by
    rw [hWd] at hw ⊢
    exact fl_le hw (by norm_num)
  have f2 : mul (rnd W) t = some (rnd (rnd W * t)) := by
    refine fl_le (e := 401 + 40) ?_ (by norm_num)
    rw [abs_mul, zpow_add₀ (by norm_num)]
    exact mul_le_mul (rnd_abs_le (by norm_num) hw) (ht.trans hT2) (abs_nonneg _) (two_pos _).le
  have hNne : N ≠ 0 := hN0.ne'
  have hpos441 := two_pos 441
  have f3 : div (rnd (rnd W * t)) N = some (rnd (rnd (rnd W * t) / N)) := by
    rw [div, if_neg hNne]
    refine fl_le (e := 444) ?_ (by norm_num)
    rw [← h450]
    have : ∀ a z P : ℚ, a ≤ 2 * z → z ≤ P → 0 < P → a ≤ 8 * P := by intros; linarith
    exact this _ _ _ b1 hZ hpos441
  obtain ⟨q, hq⟩ : ∃ q, q = rnd (rnd (rnd W * t) / N) := ⟨_, rfl⟩
  rw [← hq] at f3 b2 b3
  have hz : |W * t / N| ≤ W * T / N := by
    rw [abs_div, abs_mul, abs_of_pos hW0, abs_of_pos hN0]
    exact div_le_div_of_nonneg_right (mul_le_mul_of_nonneg_left ht hW0.le) hN0.le
  have hqd : |q + domLo| ≤ |q - W * t / N| + W * T / N + |domLo| := by
    have k1 := abs_add_le q domLo
    have k2 := abs_sub_abs_le_abs_sub q (W * t / N)
    linarith
  have e4 := err hqd
  have h400 : (2 : ℚ) ^ (400 : ℤ) ≤ 2 ^ (441 : ℤ) := zpow_le_zpow_right₀ (by norm_num) (by norm_num)
  have huZ : u * (W * T / N) ≤ W * T / N / 1000000 := by
    have : 0 ≤ W * T / N := by positivity
    nlinarith
  have hqd2 : |q + domLo| ≤ 2 ^ (444 : ℤ) := by
    rw [← h450]
    have k : 7 / 2 * u * (W * T / N) = 7 / 2 * (u * (W * T / N)) := by ring
    rw [k] at b2
    have : ∀ a b z v d P Q : ℚ, a ≤ b + z + d → b ≤ 7 / 2 * v → v ≤ z / 1000000 → d ≤ Q → Q ≤ P → z ≤ P → 0 < P → a ≤ 8 * P := by
      intros; linarith
    exact this _ _ _ _ _ _ _ hqd b2 huZ hl h400 hZ hpos441
  have f4 : add q domLo = some (rnd (q + domLo)) := fl_le hqd2 (by norm_num)
  refine ⟨rnd (q + domLo), ?_, ?_, ?_⟩
  · unfold indexToPosition
    rw [← hN', f1, c1]
    show (sub _ _).bind _ = _
    rw [c2]
    show (mul _ _).bind _ = _
    rw [f2]
    show (div _ _).bind _ = _
    rw [f3]
    exact f4
  · exact (rnd_abs_le (by norm_num) hqd2).trans (zpow_le_zpow_right₀ (by norm_num) (by norm_num))
  · have k1 : rnd (q + domLo) - (W * t / N + domLo) = (rnd (q + domLo) - (q + domLo)) + (q - W * t / N) := by ring
    have k2 := abs_add_le (rnd (q + domLo) - (q + domLo)) (q - W * t / N)
    have k3 : 5 / 2 ^ 53 * (W * T / N + |domLo|) = 5 * u * (W * T / N + |domLo|) := by rw [hu]; ring
    rw [k1, k3]
    linarith

theorem fl_bind {β : Type} {x : ℚ} {f : ℚ → Option β} {b : β} (h : (fl x).bind f = some b) : f (rnd x) = some b := by
  rcases hf : fl x with _ | y
  · rw [hf] at h; cases h
  · rw [hf] at h
    rw [← fl_eq hf]
    exact h

/-- all roundings of `xnorm` -/
theorem xnorm_some {lo hi ghost : ℤ} {stagger : Bool} {domLo domHi pos x : ℚ} (h : xnorm lo hi ghost stagger domLo domHi pos = some x) :
    rnd (domHi - domLo) ≠ 0 ∧
    x = rnd (rnd (rnd (rnd (rnd (rnd (pos - domLo) * ((hi - lo - 2 * ghost + 1 : ℤ) : ℚ)) / rnd (domHi - domLo)) - halfIf stagger) + ghost) + lo) := by
  unfold xnorm at h
  have h1 := fl_bind h
  have h2 := fl_bind h1
  have h3 := fl_bind h2
  by_cases h0 : rnd (domHi - domLo) = 0
  · rw [div, if_pos h0] at h3; cases h3
  · rw [div, if_neg h0] at h3
    have h4 := fl_bind h3
    have h5 := fl_bind h4
    have h6 := fl_bind h5
    exact ⟨h0, fl_eq h6⟩

theorem xnorm_mono {lo hi ghost : ℤ} {stagger : Bool} {domLo domHi pos pos' x x' : ℚ} (hN : 1 ≤ hi - lo - 2 * ghost + 1) (hd : domLo ≤ domHi)
    (hp : pos ≤ pos') (h : xnorm lo hi ghost stagger domLo domHi pos = some x) (h' : xnorm lo hi ghost stagger domLo domHi pos' = some x') :
    x ≤ x' := by
  obtain ⟨h0, rfl⟩ := xnorm_some h
  obtain ⟨-, rfl⟩ := xnorm_some h'
  have hN' : (0 : ℚ) ≤ ((hi - lo - 2 * ghost + 1 : ℤ) : ℚ) := by exact_mod_cast (by omega)
  have hW : 0 ≤ rnd (domHi - domLo) := by
    have := rnd_mono (sub_nonneg.mpr hd)
    rwa [rnd_zero] at this
  refine rnd_mono (add_le_add_left (rnd_mono (add_le_add_left (rnd_mono (sub_le_sub_right (rnd_mono ?_) _)) _)) _)
  exact div_le_div_of_nonneg_right (rnd_mono (mul_le_mul_of_nonneg_right (rnd_mono (sub_le_sub_right hp _)) hN')) hW

theorem toInt_int {k : ℤ} (h1 : -2 ^ 31 ≤ k) (h2 : k < 2 ^ 31) : Binary64.toInt (k : ℚ) = some k := by
  unfold Binary64.toInt
  simp only [Int.floor_intCast, Int.ceil_intCast, ite_self]
  rw [if_pos ⟨h1, h2⟩]

theorem toInt_some {k j : ℤ} (h : Binary64.toInt (k : ℚ) = some j) : j = k ∧ -2 ^ 31 ≤ k ∧ k < 2 ^ 31 := by
  unfold Binary64.toInt at h
  simp only [Int.floor_intCast, Int.ceil_intCast, ite_self] at h
  split at h
  · exact ⟨(Option.some.inj h).symm, by assumption⟩
  · cases h

theorem positionToIndex_some {lo hi ghost : ℤ} {stagger : Bool} {domLo domHi pos : ℚ} {k : ℤ}
    (h : Binary64.positionToIndex lo hi ghost stagger domLo domHi pos = some k) :
    ∃ x, xnorm lo hi ghost stagger domLo domHi pos = some x ∧ k = ⌊x⌋ := by
  unfold Binary64.positionToIndex at h
  rcases hx : xnorm lo hi ghost stagger domLo domHi pos with _ | x
  · rw [hx] at h; cases h
  · rw [hx] at h
    exact ⟨x, rfl, (toInt_some h).1⟩

theorem positionToIndexOffset_some {lo hi ghost : ℤ} {stagger : Bool} {domLo domHi pos : ℚ} {k : ℤ} {t : ℚ}
    (h : positionToIndexOffset lo hi ghost stagger domLo domHi pos = some (k, t)) :
    ∃ x, xnorm lo hi ghost stagger domLo domHi pos = some x ∧ k = ⌊x⌋ ∧ -2 ^ 31 ≤ k ∧ k < 2 ^ 31 ∧ t = rnd (x - k) := by
  unfold positionToIndexOffset at h
  rcases hx : xnorm lo hi ghost stagger domLo domHi pos with _ | x
  · rw [hx] at h; cases h
  · rw [hx] at h
    replace h : (Binary64.toInt ((⌊x⌋ : ℤ) : ℚ)).bind _ = some (k, t) := h
    rcases hk : Binary64.toInt ((⌊x⌋ : ℤ) : ℚ) with _ | j
    · rw [hk] at h; cases h
    · rw [hk] at h
      obtain ⟨rfl, h1, h2⟩ := toInt_some hk
      have h3 := fl_bind h
      have h4 := Option.some.inj h3
      rw [Prod.mk.injEq] at h4
      exact ⟨x, rfl, h4.1.symm, by rw [← h4.1]; exact h1, by rw [← h4.1]; exact h2, by rw [← h4.1]; exact h4.2.symm⟩

/-- the fractional part of a number that is not negative has no rounding error -/
theorem isFormat_fract {x : ℚ} (h : IsFormat x) (h0 : 0 ≤ x) : IsFormat (x - ⌊x⌋) := by
  obtain ⟨m, e, hm, he, rfl⟩ := h
  rcases le_or_gt 0 e with h1 | h1
  · obtain ⟨k, rfl⟩ := Int.eq_ofNat_of_zero_le h1
    have e1 : (m : ℚ) * 2 ^ (k : ℤ) = ((m * 2 ^ k : ℤ) : ℚ) := by push_cast; rw [zpow_natCast]
    rw [e1, Int.floor_intCast, sub_self]
    exact ⟨0, 0, by norm_num, by norm_num, by simp⟩
  · obtain ⟨k, hk⟩ := Int.eq_ofNat_of_zero_le (by omega : 0 ≤ -e)
    obtain ⟨f, hf⟩ : ∃ f, f = ⌊(m : ℚ) * 2 ^ e⌋ := ⟨_, rfl⟩
    rw [← hf]
    have hp := two_pos e
    have hm0 : 0 ≤ m := by
      by_contra hc
      have : (m : ℚ) < 0 := by exact_mod_cast not_le.mp hc
      have := mul_neg_of_neg_of_pos this hp
      linarith
    have hf0 : 0 ≤ f := by rw [hf]; exact Int.floor_nonneg.mpr h0
    have hfl : (f : ℚ) ≤ m * 2 ^ e := by rw [hf]; exact Int.floor_le _
    have e1 : (f : ℚ) = ((f * 2 ^ k : ℤ) : ℚ) * 2 ^ e := by
      push_cast
      rw [mul_assoc, ← zpow_natCast, ← zpow_add₀ (by norm_num), show ((k : ℤ) + e) = 0 by omega, zpow_zero, mul_one]
    have hle : f * 2 ^ k ≤ m := by
      rw [e1] at hfl
      exact_mod_cast le_of_mul_le_mul_right hfl hp
    have hge : 0 ≤ f * 2 ^ k := by positivity
    refine ⟨m - f * 2 ^ k, e, ?_, he, ?_⟩
    · rw [abs_lt] at hm ⊢
      constructor <;> omega
    · rw [e1]; push_cast; ring

theorem xnorm_isFormat {lo hi ghost : ℤ} {stagger : Bool} {domLo domHi pos x : ℚ} (h : xnorm lo hi ghost stagger domLo domHi pos = some x) :
    IsFormat x := by
  obtain ⟨-, rfl⟩ := xnorm_some h
  exact rnd_format _

theorem offset_bounds {x : ℚ} (hx : IsFormat x) : 0 ≤ rnd (x - ⌊x⌋) ∧ rnd (x - ⌊x⌋) ≤ 1 ∧ (0 ≤ ⌊x⌋ → rnd (x - ⌊x⌋) < 1) := by
  have h0 := Int.floor_le x
  have h1 := Int.lt_floor_add_one x
  refine ⟨?_, ?_, fun h => ?_⟩
  · have := rnd_mono (sub_nonneg.mpr h0)
    rwa [rnd_zero] at this
  · have := rnd_mono (a := x - ⌊x⌋) (b := ((1 : ℤ) : ℚ)) (by push_cast; linarith)
    rw [rnd_int (by norm_num)] at this
    exact_mod_cast this
  · rw [rnd_of_format (isFormat_fract hx (Int.floor_nonneg.mp h))]
    linarith

/-- the result from that of `xnorm` -/
theorem positionToIndexOffset_eq {lo hi ghost : ℤ} {stagger : Bool} {domLo domHi pos x : ℚ} (h : xnorm lo hi ghost stagger domLo domHi pos = some x)
    (h1 : -2 ^ 31 ≤ ⌊x⌋) (h2 : ⌊x⌋ < 2 ^ 31) :
    positionToIndexOffset lo hi ghost stagger domLo domHi pos = some (⌊x⌋, rnd (x - ⌊x⌋)) := by
  have k0 := Int.floor_le x
  have k1 := Int.lt_floor_add_one x
  unfold positionToIndexOffset
  rw [h]
  show (Binary64.toInt _).bind _ = _
  rw [toInt_int h1 h2]
  show (fl (x - ⌊x⌋)).bind _ = _
  rw [fl_le (e := 0) (by rw [zpow_zero, abs_le]; constructor <;> linarith) (by norm_num)]
  rfl

theorem positionToIndex_eq {lo hi ghost : ℤ} {stagger : Bool} {domLo domHi pos x : ℚ} (h : xnorm lo hi ghost stagger domLo domHi pos = some x)
    (h1 : -2 ^ 31 ≤ ⌊x⌋) (h2 : ⌊x⌋ < 2 ^ 31) :
    Binary64.positionToIndex lo hi ghost stagger domLo domHi pos = some ⌊x⌋ := by
  unfold Binary64.positionToIndex
  rw [h]
  exact toInt_int h1 h2

/-- rounding of the offset -/
theorem offset_error (x : ℚ) : |rnd (x - ⌊x⌋) - (x - ⌊x⌋)| ≤ 2 / 2 ^ 53 := by
  have k0 := Int.floor_le x
  have k1 := Int.lt_floor_add_one x
  have h := rnd_err_le (x := x - ⌊x⌋) (B := 1) (by rw [abs_le]; constructor <;> linarith)
  have := eta_small
  refine h.trans ?_
  have : (2 : ℚ) ^ (-1075 : ℤ) ≤ 1 / 2 ^ 53 := by
    refine this.trans ?_
    norm_num
  linarith

theorem fl_dyadic {m e : ℤ} (hm : |m| ≤ 2 ^ 53) (he : -1074 ≤ e) (he2 : e ≤ 900) : fl ((m : ℚ) * 2 ^ e) = some ((m : ℚ) * 2 ^ e) := by
  refine fl_format (isFormat_of_le hm he) (e := 53 + e) ?_ (by omega)
  rw [abs_mul, abs_of_pos (two_pos e), zpow_add₀ (by norm_num)]
  refine mul_le_mul_of_nonneg_right ?_ (two_pos e).le
  have : ((|m| : ℤ) : ℚ) ≤ ((2 ^ 53 : ℤ) : ℚ) := by exact_mod_cast hm
  push_cast at this
  exact this

/-- cells whose width is a power of two -/
theorem exact_conversions {lo hi ghost i e j M : ℤ} {stagger : Bool} {domLo domHi : ℚ} (hN : 1 ≤ hi - lo - 2 * ghost + 1) (hlo : |lo| ≤ M)
    (hhi : |hi| ≤ M) (hg : |ghost| ≤ M) (hi' : |i| ≤ M) (hM : M ≤ 2 ^ 23) (hj : domLo = j * 2 ^ e) (hj2 : |j| ≤ 2 ^ 40)
    (hW : domHi - domLo = ((hi - lo - 2 * ghost + 1 : ℤ) : ℚ) * 2 ^ e) (he1 : -426 ≤ e) (he2 : e ≤ 401) :
    ∃ r, (indexToPosition lo hi ghost stagger domLo domHi i = some r ∧
      r = j * 2 ^ e + (((i - lo : ℤ) : ℚ) + halfIf stagger - ghost) * 2 ^ e) ∧ xnorm lo hi ghost stagger domLo domHi r = some (i : ℚ) := by
  obtain ⟨s, hs, hs'⟩ : ∃ s : ℤ, halfIf stagger = (s : ℚ) * 2 ^ (-1 : ℤ) ∧ 0 ≤ s ∧ s ≤ 1 := by
    cases stagger
    · exact ⟨0, by simp [halfIf], by norm_num⟩
    · exact ⟨1, by simp [halfIf], by norm_num⟩
  rw [abs_le] at hlo hhi hg hi' hj2
  obtain ⟨N, hNd⟩ : ∃ N, N = hi - lo - 2 * ghost + 1 := ⟨_, rfl⟩
  obtain ⟨h, hh⟩ : ∃ h, h = 2 * (i - lo) + s - 2 * ghost := ⟨_, rfl⟩
  have hN2 : N ≤ 2 ^ 26 := by omega
  have hh1 : -2 ^ 26 ≤ h := by omega
  have hh2 : h ≤ 2 ^ 26 := by omega
  have hhN : |N * h| ≤ 2 ^ 53 := by
    rw [abs_mul]
    have h1 : |N| ≤ 2 ^ 26 := by rw [abs_le]; constructor <;> omega
    have h2 : |h| ≤ 2 ^ 26 := by rw [abs_le]; constructor <;> omega
    calc |N| * |h| ≤ 2 ^ 26 * 2 ^ 26 := mul_le_mul h1 h2 (abs_nonneg _) (by norm_num)
      _ ≤ _ := by norm_num
  have h2e : (2 : ℚ) ^ (e - 1) * 2 = 2 ^ e := by
    rw [← zpow_add_one₀ (by norm_num)]; congr 1; ring
  have hm1 : (2 : ℚ) ^ (-1 : ℤ) = 1 / 2 := by norm_num
  have hp := two_pos (e - 1)
  obtain ⟨P, hP⟩ : ∃ P : ℚ, P = 2 ^ (e - 1) := ⟨_, rfl⟩
  obtain ⟨c1, c2⟩ := centre_exact (lo := lo) (ghost := ghost) (index := i) (stagger := stagger) (by rw [abs_le]; constructor <;> omega)
    (by rw [abs_le]; constructor <;> omega)
  have ht : ((i - lo : ℤ) : ℚ) + halfIf stagger - ghost = h * (1 / 2) := by rw [hs, hh, hm1]; push_cast; ring
  have hNq : (N : ℚ) ≠ 0 := by
    have : N ≠ 0 := by omega
    exact_mod_cast this
  rw [← hNd] at hW
  have d1 : ∀ m : ℤ, |m| ≤ 2 ^ 53 → fl ((m : ℚ) * P) = some ((m : ℚ) * P) := fun m hm => by
    rw [hP]; exact fl_dyadic hm (by omega) (by omega)
  have d2 : ∀ m : ℤ, |m| ≤ 2 ^ 53 → fl ((m : ℚ) * (1 / 2)) = some ((m : ℚ) * (1 / 2)) := fun m hm => by
    rw [← hm1]; exact fl_dyadic hm (by norm_num) (by norm_num)
  rw [← h2e, ← hP] at hW hj
  rw [← hP] at hp
  have f1 : sub domHi domLo = some (domHi - domLo) := by
    rw [sub, hW]
    have := d1 (2 * N) (by rw [abs_le]; constructor <;> omega)
    push_cast at this
    rw [show (N : ℚ) * (P * 2) = 2 * N * P by ring]
    exact this
  refine ⟨((h + 2 * j : ℤ) : ℚ) * P, ⟨?_, ?_⟩, ?_⟩
  · unfold indexToPosition
    rw [← hNd, f1, c1]
    show (sub _ _).bind _ = _
    rw [c2]
    show (mul _ _).bind _ = _
    rw [ht, hW, mul, show (N : ℚ) * (P * 2) * (h * (1 / 2)) = ((N * h : ℤ) : ℚ) * P by push_cast; ring, d1 _ hhN]
    show (div _ _).bind _ = _
    rw [div, if_neg hNq, show ((N * h : ℤ) : ℚ) * P / N = h * P by push_cast; field_simp, d1 _ (by rw [abs_le]; constructor <;> omega)]
    show add _ _ = _
    rw [add, hj, show (h : ℚ) * P + j * (P * 2) = ((h + 2 * j : ℤ) : ℚ) * P by push_cast; ring]
    exact d1 _ (by rw [abs_le]; constructor <;> omega)
  · rw [ht, ← h2e, ← hP]; push_cast; ring
  · unfold xnorm
    rw [← hNd]
    show (sub _ _).bind _ = _
    rw [sub, hj, show ((h + 2 * j : ℤ) : ℚ) * P - j * (P * 2) = h * P by push_cast; ring, d1 _ (by rw [abs_le]; constructor <;> omega)]
    show (mul _ _).bind _ = _
    rw [mul, show (h : ℚ) * P * N = ((N * h : ℤ) : ℚ) * P by push_cast; ring, d1 _ hhN, ← hj, f1]
    show (div _ _).bind _ = _
    have hne : domHi - domLo ≠ 0 := by
      rw [hW]
      exact mul_ne_zero hNq (by positivity)
    rw [div, if_neg hne, hW, show ((N * h : ℤ) : ℚ) * P / (N * (P * 2)) = h * (1 / 2) by push_cast; field_simp,
      d2 _ (by rw [abs_le]; constructor <;> omega)]
    show (sub _ _).bind _ = _
    rw [sub, hs, hm1, show (h : ℚ) * (1 / 2) - s * (1 / 2) = ((h - s : ℤ) : ℚ) * (1 / 2) by push_cast; ring,
      d2 _ (by rw [abs_le]; constructor <;> omega)]
    show (add _ _).bind _ = _
    rw [add, show ((h - s : ℤ) : ℚ) * (1 / 2) + ghost = ((h - s + 2 * ghost : ℤ) : ℚ) * (1 / 2) by push_cast; ring,
      d2 _ (by rw [abs_le]; constructor <;> omega)]
    show add _ _ = _
    rw [add, show ((h - s + 2 * ghost : ℤ) : ℚ) * (1 / 2) + lo = ((h - s + 2 * ghost + 2 * lo : ℤ) : ℚ) * (1 / 2) by push_cast; ring,
      d2 _ (by rw [abs_le]; constructor <;> omega), hh]
    congr 1
    push_cast
    ring

end Schnek.Lemma.Binary64
