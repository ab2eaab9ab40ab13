import Verif.Lemma.FieldDouble
import Verif.Props.Field
import Verif.Props.Subdivision

/-!
# C121: positions and indices in `double`
-/

namespace Schnek.Props

open Schnek Schnek.Spec Schnek.Binary64 Schnek.Lemma.Binary64

variable {n : ℕ}

/-- **C121** (about the model of `double`) An operation gives the value nearest to the exact result, and if there are two nearest values, the one with
an even significand; unless that value is `2^1024` or more. -/
theorem C121_rounding (x : ℚ) :
    (∀ y, fl x = some y → IsDouble y ∧ (∀ z, IsFormat z → |y - x| ≤ |z - x|) ∧
      ∀ z, IsFormat z → z ≠ y → |z - x| = |y - x| → ∃ m e : ℤ, -1074 ≤ e ∧ y = (2 * m : ℤ) * 2 ^ e ∧ |z - y| = 2 ^ e) ∧
    (fl x = none → 2 ^ (1023 : ℤ) < |x|) := by
  constructor
  · intro y hy
    have h := fl_eq hy
    subst h
    refine ⟨⟨rnd_format x, ?_⟩, fun z hz => rnd_near x hz, fun z hz hne hd => rnd_tie x hz hne hd⟩
    unfold fl at hy
    split at hy
    · assumption
    · cases hy
  · intro h
    by_contra hc
    rw [fl_some (not_lt.mp hc)] at h
    cases h

/-- The rounding of `double` is one of those for which C22 to C24 and the reductions of C112 and C120 are stated. -/
theorem C121_symmetric_rounding : SymmetricRounding rnd := by
  have rel : ∀ x : ℚ, 1 / 2 ^ 40 ≤ |x| → |rnd x - x| ≤ |x| / 2 ^ 52 := by
    intro x h1
    have h2 : (2 : ℚ) ^ (-1022 : ℤ) ≤ 1 / 2 ^ 40 := by
      calc (2 : ℚ) ^ (-1022 : ℤ) ≤ 2 ^ (-40 : ℤ) := zpow_le_zpow_right₀ (by norm_num) (by norm_num)
        _ = _ := by norm_num
    refine (rnd_rel (h2.trans h1)).trans ?_
    have := abs_nonneg x
    linarith
  refine { mono := rnd_mono, int := fun k hk => rnd_int hk, rel := fun x h1 _ => ?_, rel_abs := fun x h1 _ => rel x h1 }
  have h0 : 0 < x := lt_of_lt_of_le (by norm_num) h1
  have := rel x (by rwa [abs_of_pos h0])
  rwa [abs_of_pos h0] at this

/-- What is asked of a field: at least one cell, limits and ghost width of at most `M`, and a domain whose limits and width are not extremely
large or small. -/
structure Ordinary (f : FieldShape ℚ n) (d : Fin n) (M : ℤ) : Prop where
  cells : 1 ≤ cells f d
  pos : 1 ≤ M
  lo : |f.range.lo d| ≤ M
  hi : |f.range.hi d| ≤ M
  ghost : |f.ghost| ≤ M
  domLo : |f.domLo d| ≤ 2 ^ (400 : ℤ)
  domHi : |f.domHi d| ≤ 2 ^ (400 : ℤ)
  width : 2 ^ (-400 : ℤ) ≤ f.domHi d - f.domLo d

private theorem cells_eq (f : FieldShape ℚ n) (d : Fin n) : cells f d = f.range.hi d - f.range.lo d - 2 * f.ghost + 1 := by
  simp only [cells, FieldShape.innerHi, FieldShape.innerLo]
  omega

private theorem point_eq (f : FieldShape ℚ n) (d : Fin n) (i : ℤ) :
    pointAt f d i = f.domLo d + (((i - f.range.lo d : ℤ) : ℚ) + halfIf (f.stagger d) - f.ghost) * dx f d := by
  simp only [pointAt, FieldShape.innerLo, halfIf]
  push_cast
  ring

/-- the exact index, with its fractional part -/
private def exactIndex (f : FieldShape ℚ n) (d : Fin n) (pos : ℚ) : ℚ := (pos - pointAt f d 0) / dx f d

private theorem dx_pos {f : FieldShape ℚ n} {d : Fin n} {M : ℤ} (hf : Ordinary f d M) : 0 < dx f d := by
  have h1 : 0 < f.domHi d - f.domLo d := lt_of_lt_of_le (two_pos _) hf.width
  have h2 : (0 : ℚ) < cells f d := by exact_mod_cast lt_of_lt_of_le one_pos hf.cells
  exact div_pos h1 h2

private theorem exactIndex_eq {f : FieldShape ℚ n} {d : Fin n} {M : ℤ} (hf : Ordinary f d M) (pos : ℚ) :
    exactIndex f d pos = (pos - f.domLo d) * cells f d / (f.domHi d - f.domLo d) - halfIf (f.stagger d) + f.ghost + f.range.lo d := by
  have h1 : f.domHi d - f.domLo d ≠ 0 := (lt_of_lt_of_le (two_pos _) hf.width).ne'
  have h2 : (cells f d : ℚ) ≠ 0 := by
    have : (0 : ℚ) < cells f d := by exact_mod_cast lt_of_lt_of_le one_pos hf.cells
    exact this.ne'
  rw [exactIndex, point_eq, dx]
  push_cast
  field_simp
  ring

private theorem exactIndex_point {f : FieldShape ℚ n} {d : Fin n} {M : ℤ} (hf : Ordinary f d M) (i : ℤ) (t : ℚ) :
    exactIndex f d (pointAt f d i + t * dx f d) = i + t := by
  have := (dx_pos hf).ne'
  rw [exactIndex, point_eq, point_eq]
  push_cast
  field_simp
  ring

private theorem exactIndex_sub {f : FieldShape ℚ n} {d : Fin n} {M : ℤ} (hf : Ordinary f d M) (p q : ℚ) :
    p - q = (exactIndex f d p - exactIndex f d q) * dx f d := by
  have := (dx_pos hf).ne'
  rw [exactIndex, exactIndex]
  field_simp
  ring

private theorem cells_le {f : FieldShape ℚ n} {d : Fin n} {M : ℤ} (hf : Ordinary f d M) : cells f d ≤ 5 * M := by
  have h1 := abs_le.mp hf.lo
  have h2 := abs_le.mp hf.hi
  have h3 := abs_le.mp hf.ghost
  have h4 := hf.pos
  rw [cells_eq]
  omega

private theorem abs_cast {a M : ℤ} (h : |a| ≤ M) : |(a : ℚ)| ≤ M := by exact_mod_cast h

private theorem result {f : FieldShape ℚ n} {d : Fin n} {M : ℤ} (hf : Ordinary f d M) (hM : M ≤ 2 ^ 26) {pos : ℚ} (hp : |pos| ≤ 2 ^ (500 : ℤ))
    (hy : |(pos - f.domLo d) * cells f d / (f.domHi d - f.domLo d)| ≤ 10 * M) :
    ∃ x, |x - exactIndex f d pos| ≤ 160 * M / 2 ^ 53 ∧ indexAt f d pos = some ⌊x⌋ ∧ indexOffsetAt f d pos = some (⌊x⌋, rnd (x - ⌊x⌋)) := by
  have hM1 : (1 : ℚ) ≤ M := by exact_mod_cast hf.pos
  have hM2 : (M : ℚ) ≤ 2 ^ 26 := by exact_mod_cast hM
  have hc1 : (1 : ℚ) ≤ cells f d := by exact_mod_cast hf.cells
  have hc2 : (cells f d : ℚ) ≤ 5 * M := by exact_mod_cast cells_le hf
  have h45 : (2 : ℚ) ^ (400 : ℤ) ≤ 2 ^ (500 : ℤ) := zpow_le_zpow_right₀ (by norm_num) (by norm_num)
  have hW : (2 : ℚ) ^ (-500 : ℤ) ≤ 2 ^ (-400 : ℤ) := zpow_le_zpow_right₀ (by norm_num) (by norm_num)
  have hg := abs_cast hf.ghost
  have hl := abs_cast hf.lo
  obtain ⟨x, hx, he⟩ := xnorm_error (lo := f.range.lo d) (hi := f.range.hi d) (ghost := f.ghost) (stagger := f.stagger d) (M := 10 * M)
    (N := cells f d) (by rw [cells_eq]) hc1 (hc2.trans (by norm_num; linarith)) (by linarith) (by norm_num; linarith) hp
    (hf.domLo.trans h45) (hf.domHi.trans h45) (hW.trans hf.width) hy (hg.trans (by linarith)) (hl.trans (by linarith))
  rw [← exactIndex_eq hf pos, show 16 * (10 * (M : ℚ)) = 160 * M by ring] at he
  have hs : |halfIf (f.stagger d)| ≤ 1 / 2 := halfIf_abs _
  have hE : |exactIndex f d pos| ≤ 12 * M + 1 / 2 := by
    rw [exactIndex_eq hf]
    rw [abs_le] at hy hg hl hs ⊢
    constructor <;> linarith
  have hx' : |x| ≤ 14 * M := by
    have h1 := abs_sub_abs_le_abs_sub x (exactIndex f d pos)
    have h2 : 160 * (M : ℚ) / 2 ^ 53 ≤ 1 / 2 * M := by
      rw [div_le_iff₀ (by norm_num)]
      linarith
    linarith
  have hxl : (-2 ^ 31 : ℤ) ≤ ⌊x⌋ := by
    rw [Int.le_floor]
    rw [abs_le] at hx'
    push_cast
    linarith
  have hxu : ⌊x⌋ < (2 ^ 31 : ℤ) := by
    rw [Int.floor_lt]
    rw [abs_le] at hx'
    push_cast
    linarith
  exact ⟨x, he, positionToIndex_eq hx hxl hxu, positionToIndexOffset_eq hx hxl hxu⟩

private theorem in_reach {f : FieldShape ℚ n} {d : Fin n} {M : ℤ} (hf : Ordinary f d M) {pos : ℚ}
    (h1 : f.domLo d - (f.domHi d - f.domLo d) ≤ pos) (h2 : pos ≤ f.domHi d + (f.domHi d - f.domLo d)) :
    |pos| ≤ 2 ^ (500 : ℤ) ∧ |(pos - f.domLo d) * cells f d / (f.domHi d - f.domLo d)| ≤ 10 * M := by
  have h0 : 0 < f.domHi d - f.domLo d := lt_of_lt_of_le (two_pos _) hf.width
  constructor
  · have a1 := abs_le.mp hf.domLo
    have a2 := abs_le.mp hf.domHi
    have h45 : 8 * (2 : ℚ) ^ (400 : ℤ) ≤ 2 ^ (500 : ℤ) := by
      calc 8 * (2 : ℚ) ^ (400 : ℤ) = 2 ^ (3 : ℤ) * 2 ^ (400 : ℤ) := by norm_num only
        _ = 2 ^ (403 : ℤ) := by rw [← zpow_add₀ (by norm_num)]; rfl
        _ ≤ _ := zpow_le_zpow_right₀ (by norm_num) (by norm_num)
    have hp := two_pos 400
    obtain ⟨P, hP⟩ : ∃ P : ℚ, P = 2 ^ (400 : ℤ) := ⟨_, rfl⟩
    rw [← hP] at a1 a2 h45 hp
    refine le_trans ?_ h45
    clear h45 hP
    rw [abs_le]
    constructor <;> linarith [a1.1, a1.2, a2.1, a2.2]
  · have hc : (0 : ℚ) ≤ cells f d := by exact_mod_cast (by have := hf.cells; omega)
    have hc2 : (cells f d : ℚ) ≤ 5 * M := by exact_mod_cast cells_le hf
    rw [abs_div, abs_of_pos h0, div_le_iff₀ h0, abs_mul, abs_of_nonneg hc]
    have : |pos - f.domLo d| ≤ 2 * (f.domHi d - f.domLo d) := by rw [abs_le]; constructor <;> linarith
    calc |pos - f.domLo d| * cells f d ≤ 2 * (f.domHi d - f.domLo d) * (5 * M) := mul_le_mul this hc2 hc (by linarith)
      _ = _ := by ring

/-- **C121** A larger position does not have a smaller index. -/
theorem C121_monotone (f : FieldShape ℚ n) (d : Fin n) (hN : 1 ≤ cells f d) (hd : f.domLo d ≤ f.domHi d) {pos pos' : ℚ} (h : pos ≤ pos')
    {k k' : ℤ} (hk : indexAt f d pos = some k) (hk' : indexAt f d pos' = some k') : k ≤ k' := by
  rw [cells_eq] at hN
  obtain ⟨x, hx, rfl⟩ := positionToIndex_some hk
  obtain ⟨x', hx', rfl⟩ := positionToIndex_some hk'
  exact Int.floor_le_floor (xnorm_mono hN hd h hx hx')

/-- **C121** The two versions of `positionToIndex` give the same index. -/
theorem C121_same_index (f : FieldShape ℚ n) (d : Fin n) {pos : ℚ} {k : ℤ} {t : ℚ} (h : indexOffsetAt f d pos = some (k, t)) :
    indexAt f d pos = some k := by
  obtain ⟨x, hx, rfl, h1, h2, -⟩ := positionToIndexOffset_some h
  exact positionToIndex_eq hx h1 h2

/-- **C121** The offset is between 0 and 1, and it is less than 1 if the index is not negative. -/
theorem C121_offset (f : FieldShape ℚ n) (d : Fin n) {pos : ℚ} {k : ℤ} {t : ℚ} (h : indexOffsetAt f d pos = some (k, t)) :
    0 ≤ t ∧ t ≤ 1 ∧ (0 ≤ k → t < 1) := by
  obtain ⟨x, hx, rfl, -, -, rfl⟩ := positionToIndexOffset_some h
  exact offset_bounds (xnorm_isFormat hx)

/-- **C121** For a position in the domain, or outside by at most the width of the domain, `positionToIndex` has a result. It stands for a position
that differs from the given one by at most `M / 2^45` cell widths. -/
theorem C121_accuracy (f : FieldShape ℚ n) (d : Fin n) {M : ℤ} (hf : Ordinary f d M) (hM : M ≤ 2 ^ 26) {pos : ℚ}
    (h1 : f.domLo d - (f.domHi d - f.domLo d) ≤ pos) (h2 : pos ≤ f.domHi d + (f.domHi d - f.domLo d)) :
    ∃ k t, indexOffsetAt f d pos = some (k, t) ∧ |pos - (pointAt f d k + t * dx f d)| ≤ M / 2 ^ 45 * dx f d := by
  obtain ⟨hp, hy⟩ := in_reach hf h1 h2
  obtain ⟨x, hx, -, ho⟩ := result hf hM hp hy
  refine ⟨_, _, ho, ?_⟩
  rw [exactIndex_sub hf pos, exactIndex_point hf, abs_mul, abs_of_pos (dx_pos hf)]
  refine mul_le_mul_of_nonneg_right ?_ (dx_pos hf).le
  have h3 := offset_error x
  have hM1 : (1 : ℚ) ≤ M := by exact_mod_cast hf.pos
  rw [abs_le] at hx h3 ⊢
  constructor <;> linarith [hx.1, hx.2, h3.1, h3.2]

/-- **C121** The index is the correct one, unless the position is very close to a grid point. -/
theorem C121_index (f : FieldShape ℚ n) (d : Fin n) {M : ℤ} (hf : Ordinary f d M) (hM : M ≤ 2 ^ 26) {pos : ℚ}
    (h1 : f.domLo d - (f.domHi d - f.domLo d) ≤ pos) (h2 : pos ≤ f.domHi d + (f.domHi d - f.domLo d)) (i : ℤ)
    (hl : pointAt f d i + M / 2 ^ 45 * dx f d ≤ pos) (hr : pos ≤ pointAt f d (i + 1) - M / 2 ^ 45 * dx f d) :
    indexAt f d pos = some i := by
  obtain ⟨hp, hy⟩ := in_reach hf h1 h2
  obtain ⟨x, hx, hi, -⟩ := result hf hM hp hy
  have hd := dx_pos hf
  have hM1 : (1 : ℚ) ≤ M := by exact_mod_cast hf.pos
  have e1 := exactIndex_sub hf pos (pointAt f d i + 0 * dx f d)
  have e2 := exactIndex_sub hf (pointAt f d (i + 1) + 0 * dx f d) pos
  rw [exactIndex_point hf] at e1 e2
  push_cast at e2
  have k1 : (M : ℚ) / 2 ^ 45 ≤ exactIndex f d pos - i := by
    refine le_of_mul_le_mul_right ?_ hd
    linarith
  have k2 : (M : ℚ) / 2 ^ 45 ≤ i + 1 - exactIndex f d pos := by
    refine le_of_mul_le_mul_right ?_ hd
    linarith
  rw [hi, Option.some.injEq, Int.floor_eq_iff]
  rw [abs_le] at hx
  constructor <;> linarith [hx.1, hx.2]

/-- **C121** `indexToPosition` is accurate, and `positionToIndex` gives the index back, or the one before with an offset close to 1. -/
theorem C121_roundtrip (f : FieldShape ℚ n) (d : Fin n) {M K : ℤ} (hf : Ordinary f d M) (hM : M ≤ 2 ^ 26)
    (hK : |f.domLo d| ≤ K * dx f d) (hK2 : K ≤ 2 ^ 40) (i : ℤ) (hi : |i| ≤ M) :
    ∃ pos k t, positionAt f d i = some pos ∧ |pos - pointAt f d i| ≤ (M + K) / 2 ^ 45 * dx f d ∧
      indexOffsetAt f d pos = some (k, t) ∧ (k = i ∨ k = i - 1) ∧ |k + t - i| ≤ (M + K) / 2 ^ 45 := by
  have hd := dx_pos hf
  have hM1 : (1 : ℚ) ≤ M := by exact_mod_cast hf.pos
  have hM2 : (M : ℚ) ≤ 2 ^ 26 := by exact_mod_cast hM
  have hK0 : (0 : ℚ) ≤ K := by
    by_contra hc
    have := mul_neg_of_neg_of_pos (not_le.mp hc) hd
    have := abs_nonneg (f.domLo d)
    linarith
  have hK2' : (K : ℚ) ≤ 2 ^ 40 := by exact_mod_cast hK2
  have hc1 : (1 : ℚ) ≤ cells f d := by exact_mod_cast hf.cells
  have hc2 : (cells f d : ℚ) ≤ 5 * M := by exact_mod_cast cells_le hf
  have hW : (2 : ℚ) ^ (-500 : ℤ) ≤ 2 ^ (-400 : ℤ) := zpow_le_zpow_right₀ (by norm_num) (by norm_num)
  have hg := abs_cast hf.ghost
  have hl := abs_cast hf.lo
  have hi' := abs_cast hi
  have hs : |halfIf (f.stagger d)| ≤ 1 / 2 := halfIf_abs _
  have ht : |((i - f.range.lo d : ℤ) : ℚ) + halfIf (f.stagger d) - f.ghost| ≤ 4 * M := by
    rw [abs_le] at hg hl hi' hs ⊢
    push_cast
    constructor <;> linarith [hg.1, hg.2, hl.1, hl.2, hi'.1, hi'.2, hs.1, hs.2]
  have b1 : |i - f.range.lo d| ≤ 2 ^ 40 := by
    have h1 := abs_le.mp hf.lo
    have h2 := abs_le.mp hi
    rw [abs_le]
    constructor <;> omega
  have b2 : |f.ghost| ≤ 2 ^ 40 := hf.ghost.trans (hM.trans (by norm_num))
  obtain ⟨pos, hp, hp5, he⟩ := position_error (lo := f.range.lo d) (hi := f.range.hi d) (ghost := f.ghost) (stagger := f.stagger d)
    (T := 4 * M) (N := cells f d) (by rw [cells_eq]) hc1 (hc2.trans (by norm_num; linarith)) (by linarith) (by norm_num; linarith) b1 b2
    hf.domLo hf.domHi (hW.trans hf.width) ht
  have e1 : (f.domHi d - f.domLo d) * (((i - f.range.lo d : ℤ) : ℚ) + halfIf (f.stagger d) - f.ghost) / cells f d + f.domLo d =
      pointAt f d i := by
    rw [point_eq, dx]; ring
  have e2 : (f.domHi d - f.domLo d) * (4 * M) / cells f d = 4 * M * dx f d := by rw [dx]; ring
  rw [e1, e2] at he
  have he2 : |pos - pointAt f d i| ≤ (20 * M + 5 * K) / 2 ^ 53 * dx f d := by
    refine he.trans ?_
    have : 4 * M * dx f d + |f.domLo d| ≤ (4 * M + K) * dx f d := by linarith
    calc 5 / 2 ^ 53 * (4 * M * dx f d + |f.domLo d|) ≤ 5 / 2 ^ 53 * ((4 * M + K) * dx f d) := mul_le_mul_of_nonneg_left this (by norm_num)
      _ = _ := by ring
  have hE : |exactIndex f d pos - i| ≤ (20 * M + 5 * K) / 2 ^ 53 := by
    have k := exactIndex_sub hf pos (pointAt f d i + 0 * dx f d)
    rw [exactIndex_point hf, zero_mul, add_zero, add_zero] at k
    rw [k, abs_mul, abs_of_pos hd] at he2
    exact le_of_mul_le_mul_right he2 hd
  have hsmall : (20 * M + 5 * K : ℚ) / 2 ^ 53 ≤ 1 := by
    rw [div_le_iff₀ (by norm_num)]
    linarith
  have hy : |(pos - f.domLo d) * cells f d / (f.domHi d - f.domLo d)| ≤ 10 * M := by
    have k := exactIndex_eq hf pos
    rw [abs_le] at hg hl hi' hs hE ⊢
    constructor <;> linarith [hg.1, hg.2, hl.1, hl.2, hi'.1, hi'.2, hs.1, hs.2, hE.1, hE.2]
  obtain ⟨x, hx, -, ho⟩ := result hf hM hp5 hy
  have h3 := offset_error x
  have hxi : |x - i| ≤ (180 * M + 5 * K) / 2 ^ 53 := by
    rw [abs_le] at hx hE ⊢
    constructor <;> linarith [hx.1, hx.2, hE.1, hE.2]
  have hsmall2 : (180 * M + 5 * K : ℚ) / 2 ^ 53 ≤ 1 / 2 := by
    rw [div_le_iff₀ (by norm_num)]
    linarith
  refine ⟨pos, ⌊x⌋, rnd (x - ⌊x⌋), hp, he2.trans (mul_le_mul_of_nonneg_right (by linarith) hd.le), ho, ?_, ?_⟩
  · rw [abs_le] at hxi
    rcases lt_or_ge x i with h | h
    · right
      rw [Int.floor_eq_iff]
      push_cast
      constructor <;> linarith [hxi.1, hxi.2]
    · left
      rw [Int.floor_eq_iff]
      constructor <;> linarith [hxi.1, hxi.2]
  · rw [abs_le] at hxi h3 ⊢
    constructor <;> linarith [hxi.1, hxi.2, h3.1, h3.2]

/-- **C121** If the cell width is a power of two, and the lower end of the domain a multiple of it, there are no errors. -/
theorem C121_power_of_two (f : FieldShape ℚ n) (d : Fin n) {M : ℤ} (hf : Ordinary f d M) (hM : M ≤ 2 ^ 23) (e j : ℤ)
    (he : dx f d = 2 ^ e) (hj : f.domLo d = j * 2 ^ e) (hj2 : |j| ≤ 2 ^ 40) (i : ℤ) (hi : |i| ≤ M) :
    positionAt f d i = some (pointAt f d i) ∧ indexOffsetAt f d (pointAt f d i) = some (i, 0) := by
  have hd := dx_pos hf
  have hcpos := hf.cells
  have hc5 := cells_le hf
  have hMpos := hf.pos
  have hW : f.domHi d - f.domLo d = cells f d * 2 ^ e := by
    rw [← he, dx]
    have : (cells f d : ℚ) ≠ 0 := by
      have : (0 : ℚ) < cells f d := by exact_mod_cast lt_of_lt_of_le one_pos hf.cells
      exact this.ne'
    field_simp
  have hc0 : (1 : ℚ) ≤ cells f d := by exact_mod_cast hcpos
  have hc26 : (cells f d : ℚ) ≤ 2 ^ (26 : ℤ) := by
    have : cells f d ≤ 2 ^ 26 := by omega
    exact_mod_cast this
  have he1 : -426 ≤ e := by
    have h1 := hf.width
    rw [hW] at h1
    have h2 : (2 : ℚ) ^ (-400 : ℤ) ≤ 2 ^ (26 + e) := by
      rw [zpow_add₀ (by norm_num)]
      exact h1.trans (mul_le_mul_of_nonneg_right hc26 (two_pos e).le)
    have := (zpow_le_zpow_iff_right₀ (by norm_num : (1 : ℚ) < 2)).mp h2
    omega
  have he2 : e ≤ 401 := by
    have h1 : (2 : ℚ) ^ e ≤ f.domHi d - f.domLo d := by
      rw [hW]
      exact le_mul_of_one_le_left (two_pos e).le hc0
    have h2 : f.domHi d - f.domLo d ≤ 2 ^ (401 : ℤ) := by
      have a1 := (abs_le.mp hf.domLo).1
      have a2 := (abs_le.mp hf.domHi).2
      rw [show (401 : ℤ) = 1 + 400 by norm_num, zpow_add₀ (by norm_num), zpow_one]
      obtain ⟨P, hP⟩ : ∃ P : ℚ, P = 2 ^ (400 : ℤ) := ⟨_, rfl⟩
      rw [← hP] at a1 a2 ⊢
      clear hP
      linarith
    exact (zpow_le_zpow_iff_right₀ (by norm_num : (1 : ℚ) < 2)).mp (h1.trans h2)
  obtain ⟨r, hr1, hr2⟩ := Lemma.Binary64.exact_conversions (lo := f.range.lo d) (hi := f.range.hi d) (ghost := f.ghost) (stagger := f.stagger d)
    (domLo := f.domLo d) (domHi := f.domHi d) (i := i) (e := e) (j := j) (M := M) (by rw [← cells_eq]; exact hcpos) hf.lo hf.hi hf.ghost hi hM
    hj hj2 (by rw [← cells_eq]; exact hW) he1 he2
  have hrp : r = pointAt f d i := by rw [hr1.2, point_eq, he, hj]
  rw [← hrp]
  refine ⟨hr1.1, ?_⟩
  have h1 := abs_le.mp hi
  have := positionToIndexOffset_eq hr2 (by rw [Int.floor_intCast]; omega) (by rw [Int.floor_intCast]; omega)
  rw [Int.floor_intCast, sub_self, rnd_zero] at this
  exact this

/-- **C121** With a hundred cells in the domain from 0 to 1, `positionToIndex` of the position of grid point 29 is 28. -/
theorem C121_violated_roundtrip : ∃ f : FieldShape ℚ 1, f = FieldShape.ofSize ![100] ![0] ![1] ![false] 0 ∧
    ∃ pos, positionAt f 0 29 = some pos ∧ indexAt f 0 pos = some 28 := by
  have hi : ∀ k : ℤ, |k| ≤ 2 ^ 40 → fl (k : ℚ) = some (k : ℚ) := fun k hk => by
    have := fl_dyadic (m := k) (e := 0) (hk.trans (by norm_num)) (by norm_num) (by norm_num)
    rwa [zpow_zero, mul_one] at this
  have r1 : fl (29 / 100) = some (5224175567749775 / 2 ^ 54) := by
    rw [fl_le (e := 0) (by norm_num) (by norm_num), rnd_val 5224175567749775 (-54) (by norm_num)] <;> norm_num
  have r2 : fl (5224175567749775 / 2 ^ 54) = some (5224175567749775 / 2 ^ 54) := by
    have := fl_dyadic (m := 5224175567749775) (e := -54) (by norm_num) (by norm_num) (by norm_num)
    norm_num at this ⊢
    exact this
  have r3 : fl (5224175567749775 / 2 ^ 54 * 100) = some (8162774324609023 / 2 ^ 48) := by
    rw [fl_le (e := 10) (by norm_num) (by norm_num), rnd_val 8162774324609023 (-48) (by norm_num)] <;> norm_num
  have r4 : fl (8162774324609023 / 2 ^ 48) = some (8162774324609023 / 2 ^ 48) := by
    have := fl_dyadic (m := 8162774324609023) (e := -48) (by norm_num) (by norm_num) (by norm_num)
    norm_num at this ⊢
    exact this
  have h1 := hi 1 (by norm_num)
  have h29 := hi 29 (by norm_num)
  push_cast at h1 h29
  refine ⟨_, rfl, 5224175567749775 / 2 ^ 54, ?_, ?_⟩
  · simp only [positionAt, Binary64.indexToPosition, FieldShape.ofSize, halfIf, Binary64.sub, Binary64.add, Binary64.mul, Binary64.div]
    norm_num at r1 r2 ⊢
    simp [h1, h29, r1, r2]
  · simp only [indexAt, Binary64.positionToIndex, xnorm, FieldShape.ofSize, halfIf, Binary64.sub, Binary64.add, Binary64.mul, Binary64.div]
    have r3' : fl (5224175567749775 / 18014398509481984 * 100) = some (8162774324609023 / 281474976710656) := by
      norm_num at r3 ⊢
      exact r3
    norm_num at r2 r4 ⊢
    simp [h1, r2, r3', r4]
    have : ⌊(8162774324609023 / 281474976710656 : ℚ)⌋ = 28 := by norm_num [Int.floor_eq_iff]
    rw [this]
    exact toInt_int (k := 28) (by norm_num) (by norm_num)

/-- **C121** The offset can be 1. -/
theorem C121_violated_offset : ∃ f : FieldShape ℚ 1, f = FieldShape.ofSize ![8] ![0] ![1] ![false] 0 ∧
    indexOffsetAt f 0 (-2 ^ (-60 : ℤ)) = some (-1, 1) := by
  have h0 : fl 0 = some 0 := by
    have := fl_dyadic (m := 0) (e := 0) (by norm_num) (by norm_num) (by norm_num)
    norm_num at this
    exact this
  have h1 : fl 1 = some 1 := by
    have := fl_dyadic (m := 1) (e := 0) (by norm_num) (by norm_num) (by norm_num)
    norm_num at this
    exact this
  have r1 : fl (-2 ^ (-60 : ℤ)) = some (-2 ^ (-60 : ℤ)) := by
    have := fl_dyadic (m := -1) (e := -60) (by norm_num) (by norm_num) (by norm_num)
    norm_num at this ⊢
    exact this
  have r2 : fl (-2 ^ (-57 : ℤ)) = some (-2 ^ (-57 : ℤ)) := by
    have := fl_dyadic (m := -1) (e := -57) (by norm_num) (by norm_num) (by norm_num)
    norm_num at this ⊢
    exact this
  have r3 : fl (1 - 2 ^ (-57 : ℤ)) = some 1 := by
    rw [fl_le (e := 1) (by norm_num) (by norm_num), rnd_val (2 ^ 53) (-53) (by norm_num)] <;> norm_num
  refine ⟨_, rfl, ?_⟩
  simp only [indexOffsetAt, positionToIndexOffset, xnorm, FieldShape.ofSize, halfIf, Binary64.sub, Binary64.add, Binary64.mul, Binary64.div]
  norm_num at r1 r2 r3 ⊢
  have r1' : fl (-1152921504606846976⁻¹) = some (-1152921504606846976⁻¹) := by rw [← one_div]; exact r1
  have r2' : fl (-144115188075855872⁻¹) = some (-144115188075855872⁻¹) := by rw [← one_div]; exact r2
  have m8 : (-1152921504606846976⁻¹ : ℚ) * 8 = -144115188075855872⁻¹ := by norm_num
  have e : ⌊(-144115188075855872⁻¹ : ℚ)⌋ = -1 := by norm_num [Int.floor_eq_iff]
  have t := toInt_int (k := -1) (by norm_num) (by norm_num)
  have r3' : fl (-144115188075855872⁻¹ + 1) = some 1 := by norm_num; exact r3
  push_cast at t
  simp only [one_div, h1, r1', Option.bind_some, m8, r2', one_ne_zero, if_false, div_one, e, Int.cast_neg, Int.cast_one, t, sub_neg_eq_add, r3']

/-- non-vacuity: 100 cells and two ghost cells on each side of the domain from -1 to 4, staggered -/
example : Ordinary (FieldShape.ofSize (K := ℚ) ![100] ![-1] ![4] ![true] 2) 0 101 ∧
    |(FieldShape.ofSize (K := ℚ) ![100] ![-1] ![4] ![true] 2).domLo 0| ≤
      (20 : ℤ) * dx (FieldShape.ofSize (K := ℚ) ![100] ![-1] ![4] ![true] 2) 0 := by
  have h4 : (4 : ℚ) ≤ 2 ^ (400 : ℤ) := by
    calc (4 : ℚ) = 2 ^ (2 : ℤ) := by norm_num
      _ ≤ _ := zpow_le_zpow_right₀ (by norm_num) (by norm_num)
  have h5 : (2 : ℚ) ^ (-400 : ℤ) ≤ 5 := by
    calc (2 : ℚ) ^ (-400 : ℤ) ≤ 2 ^ (2 : ℤ) := zpow_le_zpow_right₀ (by norm_num) (by norm_num)
      _ ≤ _ := by norm_num
  refine ⟨⟨by decide, by decide, by decide, by decide, by decide, ?_, ?_, ?_⟩, ?_⟩
  · refine le_trans ?_ h4
    simp [FieldShape.ofSize]
  · refine le_trans ?_ h4
    simp [FieldShape.ofSize]
  · refine h5.trans ?_
    simp [FieldShape.ofSize]
    norm_num
  · simp [FieldShape.ofSize, dx, cells, FieldShape.innerLo, FieldShape.innerHi]
    norm_num

/-- non-vacuity: 64 cells in the domain from -1 to 1 have a width of `2^-5` -/
example : let f := FieldShape.ofSize (K := ℚ) ![64] ![-1] ![1] ![true] 1
    dx f 0 = 2 ^ (-5 : ℤ) ∧ f.domLo 0 = (-32 : ℤ) * 2 ^ (-5 : ℤ) := by
  simp [FieldShape.ofSize, dx, cells, FieldShape.innerLo, FieldShape.innerHi]
  norm_num

end Schnek.Props
