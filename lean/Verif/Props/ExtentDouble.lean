import Verif.Model.ExtentDouble
import Verif.Lemma.ExtentDouble
import Verif.Props.FieldDouble
import Verif.Props.Subdivision

/-!
# C125: positions of cells in different processes, in double arithmetic
-/

namespace Schnek.Props

open Schnek Schnek.Spec Schnek.Binary64 Schnek.Subdivision Schnek.Mpi Schnek.Lemma Schnek.Lemma.Mpi Schnek.Lemma.Binary64 Schnek.Lemma.ExtentDouble

variable {n : ℕ}

/-- the field of process `c`, with the local extent `E` -/
def localField (S : Setup n) (c : Coord S) (E : (Fin n → ℚ) × (Fin n → ℚ)) (stagger : Fin n → Bool) (ghost : ℤ) : FieldShape ℚ n :=
  FieldShape.ofLimits (bounds S c).innerDomain.lo (bounds S c).innerDomain.hi E.1 E.2 stagger ghost

/-- the exact position of cell `i` of the global domain -/
def globalPosition (S : Setup n) (extLo extHi : Fin n → ℚ) (stagger : Fin n → Bool) (d : Fin n) (i : ℤ) : ℚ :=
  extLo d + (i + if stagger d then 1 / 2 else 0) * cellWidth S extLo extHi d

/-- What is asked of the global domain: lower limit 0, at most `2^26` cells, an extent whose limits and width are not extremely large or small, and
which begins at most `K` cell widths away from the origin. -/
structure OrdinaryExtent (S : Setup n) (extLo extHi : Fin n → ℚ) (K : ℤ) (d : Fin n) : Prop where
  lower : S.globalLo d = 0
  cells : S.globalHi d + 1 ≤ 2 ^ 26
  lo : |extLo d| ≤ 2 ^ (300 : ℤ)
  hi : |extHi d| ≤ 2 ^ (300 : ℤ)
  width : 2 ^ (-300 : ℤ) ≤ extHi d - extLo d
  offset : |extLo d| ≤ K * cellWidth S extLo extHi d
  offset_le : K ≤ 2 ^ 40

private theorem start_step {S : Setup n} {d : Fin n} (hw : ∀ c : Coord S, 1 ≤ innerWidth (bounds S c) d) (c : Coord S) {j k : ℕ} (hjk : j ≤ k)
    (hk : k ≤ S.dims d) : start S d j ≤ start S d k := by
  induction k with
  | zero => rw [show j = 0 by omega]
  | succ k ih =>
    rcases Nat.lt_or_ge j (k + 1) with h | h
    · have h1 := ih (by omega) (by omega)
      have h2 := hw (Function.update c d ⟨k, by omega⟩)
      rw [innerWidth_eq, Function.update_self] at h2
      simp only at h2
      omega
    · rw [show j = k + 1 by omega]

private theorem inner_in {S : Setup n} {d : Fin n} (hw : ∀ c : Coord S, 1 ≤ innerWidth (bounds S c) d) (c : Coord S) :
    0 ≤ (bounds S c).innerDomain.lo d ∧ (bounds S c).innerDomain.lo d ≤ (bounds S c).innerDomain.hi d ∧
      (bounds S c).innerDomain.hi d ≤ S.globalHi d := by
  have hc := (c d).2
  have h1 := start_step hw c (Nat.zero_le (c d).1) (by omega)
  have h2 := start_step hw c (show (c d).1 + 1 ≤ S.dims d by omega) le_rfl
  have h3 := hw c
  rw [start_zero] at h1
  rw [start_dims S d (by omega)] at h2
  rw [innerWidth_eq] at h3
  rw [inner_lo, inner_hi]
  omega

/-- **C125** The local extents tile the global extent without any gap due to rounding: a process begins exactly where the one before it ends, and the
first one begins at the lower end of the global extent. -/
theorem C125_extents_tile (S : Setup n) (extLo extHi : Fin n → ℚ) (E : Coord S → (Fin n → ℚ) × (Fin n → ℚ))
    (hE : ∀ c, InnerExtentDouble (bounds S c).innerDomain (mpiGlobalDomain S) extLo extHi (E c)) (c : Coord S) (d : Fin n) :
    ((c d).1 = 0 → IsDouble (extLo d) → (E c).1 d = extLo d) ∧
    ((c d).1 + 1 < S.dims d → (E c).2 d = (E (next S c d)).1 d) := by
  have key : ∀ c, extentLimit ((mpiGlobalDomain S).hi d - (mpiGlobalDomain S).lo d + 1) (extLo d) (extHi d) (start S d (c d).1) = some ((E c).1 d) ∧
      extentLimit ((mpiGlobalDomain S).hi d - (mpiGlobalDomain S).lo d + 1) (extLo d) (extHi d) (start S d ((c d).1 + 1)) = some ((E c).2 d) := by
    intro c
    have := hE c d
    rw [innerExtentDouble, inner_lo, inner_hi, sub_add_cancel] at this
    obtain ⟨l, h1, h2⟩ := Option.bind_eq_some_iff.mp this
    obtain ⟨h, h3, h4⟩ := Option.bind_eq_some_iff.mp h2
    simp only [Option.some.injEq, Prod.mk.injEq] at h4
    exact ⟨h4.1 ▸ h1, h4.2 ▸ h3⟩
  constructor
  · intro h0 hd
    have h := (key c).1
    rw [h0, start_zero] at h
    unfold extentLimit at h
    obtain ⟨w, -, h⟩ := Option.bind_eq_some_iff.mp h
    obtain ⟨q, -, h⟩ := Option.bind_eq_some_iff.mp h
    obtain ⟨m, hm, h⟩ := Option.bind_eq_some_iff.mp h
    have hm' := fl_eq hm
    rw [Int.cast_zero, zero_mul, rnd_zero] at hm'
    have h' := fl_eq h
    rw [hm', add_zero, rnd_of_format hd.1] at h'
    exact h'
  · intro h1
    have h2 := (key c).2
    have h3 := (key (next S c d)).1
    have h4 := start_next S c d
    rw [hiShift, if_neg (by omega), add_zero] at h4
    rw [h4, h2] at h3
    exact Option.some.inj h3

/-- **C125** In the field of a process, with ghost cells no wider than its inner domain, every cell has a position, and it differs from the exact
position of the cell in the global domain by at most `(N + K) / 2^47` cell widths, where `N` is the number of cells. -/
theorem C125_accuracy (S : Setup n) (extLo extHi : Fin n → ℚ) {K : ℤ} (hS : ∀ d, OrdinaryExtent S extLo extHi K d)
    (hw : ∀ (c : Coord S) d, 1 ≤ innerWidth (bounds S c) d) (c : Coord S) :
    ∃ E, InnerExtentDouble (bounds S c).innerDomain (mpiGlobalDomain S) extLo extHi E ∧
      ∀ (stagger : Fin n → Bool) (ghost : ℤ) (d : Fin n), 0 ≤ ghost → ghost ≤ innerWidth (bounds S c) d →
        ∀ i, (bounds S c).innerDomain.lo d - ghost ≤ i → i ≤ (bounds S c).innerDomain.hi d + ghost →
          ∃ pos, positionAt (localField S c E stagger ghost) d i = some pos ∧
            |pos - globalPosition S extLo extHi stagger d i| ≤ (S.globalHi d + 1 + K) / 2 ^ 47 * cellWidth S extLo extHi d := by
  have hlim : ∀ d, ∃ l h, extentLimit (S.globalHi d + 1) (extLo d) (extHi d) ((bounds S c).innerDomain.lo d) = some l ∧
      extentLimit (S.globalHi d + 1) (extLo d) (extHi d) ((bounds S c).innerDomain.hi d + 1) = some h ∧
      |l - (extLo d + ((bounds S c).innerDomain.lo d : ℚ) * cellWidth S extLo extHi d)| ≤
        (8 * ((S.globalHi d + 1 : ℤ) : ℚ) + K) / 2 ^ 53 * cellWidth S extLo extHi d ∧
      |h - (extLo d + (((bounds S c).innerDomain.hi d + 1 : ℤ) : ℚ) * cellWidth S extLo extHi d)| ≤
        (8 * ((S.globalHi d + 1 : ℤ) : ℚ) + K) / 2 ^ 53 * cellWidth S extLo extHi d := by
    intro d
    have hd := hS d
    obtain ⟨i1, i2, i3⟩ := inner_in (fun c => hw c d) c
    obtain ⟨l, hl, e1⟩ := limit_error (N := S.globalHi d + 1) (k := (bounds S c).innerDomain.lo d) (A := extLo d) (B := extHi d) (K := K)
      (h := cellWidth S extLo extHi d) rfl (by omega) hd.cells i1 (by omega) hd.lo hd.hi hd.width hd.offset
    obtain ⟨h, hh, e2⟩ := limit_error (N := S.globalHi d + 1) (k := (bounds S c).innerDomain.hi d + 1) (A := extLo d) (B := extHi d) (K := K)
      (h := cellWidth S extLo extHi d) rfl (by omega) hd.cells (by omega) (by omega) hd.lo hd.hi hd.width hd.offset
    exact ⟨l, h, hl, hh, e1, e2⟩
  choose l h hl hh e1 e2 using hlim
  refine ⟨(l, h), fun d => ?_, ?_⟩
  · have : (mpiGlobalDomain S).hi d - (mpiGlobalDomain S).lo d + 1 = S.globalHi d + 1 := by
      show S.globalHi d - S.globalLo d + 1 = _
      rw [(hS d).lower, sub_zero]
    rw [innerExtentDouble, this, hl d, hh d]
    rfl
  · intro stagger g d hg0 hg i hi1 hi2
    have hd := hS d
    obtain ⟨i1, i2, i3⟩ := inner_in (fun c => hw c d) c
    obtain ⟨pos, h1, h2⟩ := local_position (N := S.globalHi d + 1) (a := (bounds S c).innerDomain.lo d) (b := (bounds S c).innerDomain.hi d)
      (g := g) (i := i) (A := extLo d) (B := extHi d) (K := (K : ℚ)) (h := cellWidth S extLo extHi d) (l := l d) (r := h d) (stagger := stagger d)
      rfl (by omega) hd.cells i1 i2 (by omega) hg0 (by rw [innerWidth] at hg; exact hg) hi1 hi2 hd.lo hd.hi hd.width hd.offset
      (by exact_mod_cast hd.offset_le) (e1 d) (by have := e2 d; rw [Int.cast_add, Int.cast_one] at this; exact this)
    rw [Int.cast_add, Int.cast_one] at h2
    exact ⟨pos, h1, h2⟩

/-- **C125** The positions that two processes assign to a cell, which may be a ghost cell in one of them, differ by at most `(N + K) / 2^46` cell
widths. -/
theorem C125_processes_agree (S : Setup n) (extLo extHi : Fin n → ℚ) {K : ℤ} (hS : ∀ d, OrdinaryExtent S extLo extHi K d)
    (hw : ∀ (c : Coord S) d, 1 ≤ innerWidth (bounds S c) d) (stagger : Fin n → Bool) (ghost : ℤ) (hg0 : 0 ≤ ghost)
    (c c' : Coord S) (d : Fin n) (hg : ghost ≤ innerWidth (bounds S c) d) (hg' : ghost ≤ innerWidth (bounds S c') d)
    (E E' : (Fin n → ℚ) × (Fin n → ℚ)) (hE : InnerExtentDouble (bounds S c).innerDomain (mpiGlobalDomain S) extLo extHi E)
    (hE' : InnerExtentDouble (bounds S c').innerDomain (mpiGlobalDomain S) extLo extHi E') (i : ℤ)
    (hi : (bounds S c).innerDomain.lo d - ghost ≤ i ∧ i ≤ (bounds S c).innerDomain.hi d + ghost)
    (hi' : (bounds S c').innerDomain.lo d - ghost ≤ i ∧ i ≤ (bounds S c').innerDomain.hi d + ghost) :
    ∃ pos pos', positionAt (localField S c E stagger ghost) d i = some pos ∧ positionAt (localField S c' E' stagger ghost) d i = some pos' ∧
      |pos - pos'| ≤ (S.globalHi d + 1 + K) / 2 ^ 46 * cellWidth S extLo extHi d := by
  have uniq : ∀ {c : Coord S} {E E' : (Fin n → ℚ) × (Fin n → ℚ)}, InnerExtentDouble (bounds S c).innerDomain (mpiGlobalDomain S) extLo extHi E →
      InnerExtentDouble (bounds S c).innerDomain (mpiGlobalDomain S) extLo extHi E' → E = E' := by
    intro c E E' h1 h2
    have : ∀ d, E.1 d = E'.1 d ∧ E.2 d = E'.2 d := fun d => by
      have := h1 d
      rw [h2 d] at this
      simp only [Option.some.injEq, Prod.mk.injEq] at this
      exact ⟨this.1.symm, this.2.symm⟩
    exact Prod.ext (funext fun d => (this d).1) (funext fun d => (this d).2)
  obtain ⟨F, hF, h1⟩ := C125_accuracy S extLo extHi hS hw c
  obtain ⟨F', hF', h2⟩ := C125_accuracy S extLo extHi hS hw c'
  rw [uniq hE hF, uniq hE' hF']
  obtain ⟨p, hp, e1⟩ := h1 stagger ghost d hg0 hg i hi.1 hi.2
  obtain ⟨p', hp', e2⟩ := h2 stagger ghost d hg0 hg' i hi'.1 hi'.2
  refine ⟨p, p', hp, hp', ?_⟩
  rw [abs_le] at e1 e2 ⊢
  have : ((S.globalHi d + 1 + K : ℚ)) / 2 ^ 46 * cellWidth S extLo extHi d =
      (S.globalHi d + 1 + K) / 2 ^ 47 * cellWidth S extLo extHi d + (S.globalHi d + 1 + K) / 2 ^ 47 * cellWidth S extLo extHi d := by ring
  rw [this]
  constructor <;> linarith [e1.1, e1.2, e2.1, e2.2]

/-- **C125** If the cell width is a power of two, and the lower end of the global extent a multiple of it, all processes compute the exact positions,
and therefore agree. -/
theorem C125_power_of_two (S : Setup n) (extLo extHi : Fin n → ℚ) {K : ℤ} (d : Fin n) (hd : OrdinaryExtent S extLo extHi K d)
    (hN : S.globalHi d + 1 ≤ 2 ^ 22) (hw : ∀ (c : Coord S), 1 ≤ innerWidth (bounds S c) d) (e j : ℤ)
    (he : cellWidth S extLo extHi d = 2 ^ e) (hj : extLo d = j * 2 ^ e) (hj2 : |j| ≤ 2 ^ 39) (c : Coord S)
    (E : (Fin n → ℚ) × (Fin n → ℚ)) (hE : InnerExtentDouble (bounds S c).innerDomain (mpiGlobalDomain S) extLo extHi E)
    (stagger : Fin n → Bool) (ghost : ℤ) (hg0 : 0 ≤ ghost) (hg : ghost ≤ innerWidth (bounds S c) d) (i : ℤ)
    (hi1 : (bounds S c).innerDomain.lo d - ghost ≤ i) (hi2 : i ≤ (bounds S c).innerDomain.hi d + ghost) :
    positionAt (localField S c E stagger ghost) d i = some (globalPosition S extLo extHi stagger d i) := by
  obtain ⟨i1, i2, i3⟩ := inner_in hw c
  have hj3 := abs_le.mp hj2
  have hNpos : (1 : ℚ) ≤ ((S.globalHi d + 1 : ℤ) : ℚ) := by exact_mod_cast (by omega : 1 ≤ S.globalHi d + 1)
  have hN26 : ((S.globalHi d + 1 : ℤ) : ℚ) ≤ 2 ^ (26 : ℤ) := by exact_mod_cast hd.cells
  have hW : extHi d - extLo d = ((S.globalHi d + 1 : ℤ) : ℚ) * 2 ^ e := by
    rw [← he, cellWidth]
    field_simp
  have he1 : -426 ≤ e := by
    have h1 := hd.width
    rw [hW] at h1
    have h2 : (2 : ℚ) ^ (-300 : ℤ) ≤ 2 ^ (26 + e) := by
      rw [zpow_add₀ (by norm_num)]
      exact h1.trans (mul_le_mul_of_nonneg_right hN26 (two_pos e).le)
    have := (zpow_le_zpow_iff_right₀ (by norm_num : (1 : ℚ) < 2)).mp h2
    omega
  have he2 : e ≤ 401 := by
    have h1 : (2 : ℚ) ^ e ≤ extHi d - extLo d := by
      rw [hW]
      exact le_mul_of_one_le_left (two_pos e).le hNpos
    have h2 : extHi d - extLo d ≤ 2 ^ (301 : ℤ) := by
      have a1 := (abs_le.mp hd.lo).1
      have a2 := (abs_le.mp hd.hi).2
      rw [show (301 : ℤ) = 1 + 300 by norm_num, zpow_add₀ (by norm_num), zpow_one]
      obtain ⟨P, hP⟩ : ∃ P : ℚ, P = 2 ^ (300 : ℤ) := ⟨_, rfl⟩
      rw [← hP] at a1 a2 ⊢
      clear hP
      linarith
    have := (zpow_le_zpow_iff_right₀ (by norm_num : (1 : ℚ) < 2)).mp (h1.trans h2)
    omega
  have limit : ∀ k : ℤ, 0 ≤ k → k ≤ S.globalHi d + 1 →
      extentLimit ((mpiGlobalDomain S).hi d - (mpiGlobalDomain S).lo d + 1) (extLo d) (extHi d) k = some (((j + k : ℤ) : ℚ) * 2 ^ e) := by
    intro k hk0 hk1
    have : (mpiGlobalDomain S).hi d - (mpiGlobalDomain S).lo d + 1 = S.globalHi d + 1 := by
      show S.globalHi d - S.globalLo d + 1 = _
      rw [hd.lower, sub_zero]
    rw [this]
    unfold extentLimit Binary64.sub Binary64.div Binary64.mul Binary64.add
    rw [hW, fl_dyadic (by rw [abs_le]; constructor <;> omega) (by omega) (by omega)]
    show (if ((S.globalHi d + 1 : ℤ) : ℚ) = 0 then none else fl (((S.globalHi d + 1 : ℤ) : ℚ) * 2 ^ e / ((S.globalHi d + 1 : ℤ) : ℚ))) >>= _ = _
    rw [if_neg (by linarith), mul_div_cancel_left₀ _ (by linarith)]
    have h1 := fl_dyadic (m := 1) (e := e) (by norm_num) (by omega) (by omega)
    rw [Int.cast_one, one_mul] at h1
    rw [h1]
    show fl ((k : ℚ) * 2 ^ e) >>= _ = _
    rw [fl_dyadic (by rw [abs_le]; constructor <;> omega) (by omega) (by omega)]
    show fl (extLo d + (k : ℚ) * 2 ^ e) = _
    rw [hj, ← add_mul, ← Int.cast_add, fl_dyadic (by rw [abs_le]; constructor <;> omega) (by omega) (by omega)]
  have hEd := hE d
  rw [innerExtentDouble, limit _ i1 (by omega), limit _ (by omega) (by omega)] at hEd
  simp only [Option.bind_eq_bind, Option.bind_some, Option.some.injEq, Prod.mk.injEq] at hEd
  rw [innerWidth] at hg
  obtain ⟨r, hr1, -⟩ := Lemma.Binary64.exact_conversions (lo := (bounds S c).innerDomain.lo d - ghost) (hi := (bounds S c).innerDomain.hi d + ghost)
    (ghost := ghost) (stagger := stagger d) (domLo := E.1 d) (domHi := E.2 d) (i := i) (e := e) (j := j + (bounds S c).innerDomain.lo d)
    (M := 2 ^ 23) (by omega) (by rw [abs_le]; constructor <;> omega) (by rw [abs_le]; constructor <;> omega)
    (by rw [abs_le]; constructor <;> omega) (by rw [abs_le]; constructor <;> omega) le_rfl hEd.1.symm (by rw [abs_le]; constructor <;> omega)
    (by rw [← hEd.1, ← hEd.2]; push_cast; ring) he1 he2
  show indexToPosition _ _ _ _ _ _ _ = _
  rw [show globalPosition S extLo extHi stagger d i = r by
    rw [hr1.2, globalPosition, he, hj, halfIf]
    push_cast
    ring]
  exact hr1.1

/-! ## what rounding changes -/

/-- six cells on two processes -/
def sixCells : Setup 1 := ⟨fun _ => 0, fun _ => 5, fun _ => 2, fun _ k => cutOf rnd 5 2 k, 1⟩

/-- the process with the coordinate `k` -/
def sixProcess (k : Fin 2) : Coord sixCells := fun _ => k

private theorem six_cut : cutOf rnd 5 2 1 = 2 := by decide +kernel

theorem sixCells_ordinary (d : Fin 1) : OrdinaryExtent sixCells (fun _ => 0) (fun _ => 1) 0 d where
  lower := rfl
  cells := by show (5 : ℤ) + 1 ≤ _; norm_num
  lo := by rw [abs_zero]; exact (two_pos _).le
  hi := by
    rw [abs_one]
    exact one_le_zpow₀ (by norm_num) (by norm_num)
  width := by
    rw [sub_zero, zpow_neg]
    exact inv_le_one_of_one_le₀ (one_le_zpow₀ (by norm_num) (by norm_num))
  offset := by simp
  offset_le := by norm_num

private theorem six_inner : ((bounds sixCells (sixProcess 0)).innerDomain.lo 0 = 0 ∧ (bounds sixCells (sixProcess 0)).innerDomain.hi 0 = 2) ∧
    (bounds sixCells (sixProcess 1)).innerDomain.lo 0 = 3 ∧ (bounds sixCells (sixProcess 1)).innerDomain.hi 0 = 5 := by
  simp only [inner_lo, inner_hi]
  refine ⟨⟨rfl, ?_⟩, ?_, rfl⟩
  · show cutOf rnd 5 2 1 + 1 - 1 = 2
    rw [six_cut]; norm_num
  · show cutOf rnd 5 2 1 + 1 = 3
    rw [six_cut]; norm_num

/-- **C125** FINDING: two processes may assign different positions to the same cell. Six cells on two processes, extent from 0 to 1: the first process
has cell 2 at `1/3`, rounded, the second one, for which it is a ghost cell, at the next larger `double`. -/
theorem C125_violated_same_position : ∃ (S : Setup 1) (E E' : (Fin 1 → ℚ) × (Fin 1 → ℚ)) (c c' : Coord S) (p p' : ℚ),
    Initialised S rnd ∧ (∀ d, OrdinaryExtent S (fun _ => 0) (fun _ => 1) 0 d) ∧
    InnerExtentDouble (bounds S c).innerDomain (mpiGlobalDomain S) (fun _ => 0) (fun _ => 1) E ∧
    InnerExtentDouble (bounds S c').innerDomain (mpiGlobalDomain S) (fun _ => 0) (fun _ => 1) E' ∧
    (bounds S c).innerDomain.hi 0 = 2 ∧ (bounds S c').innerDomain.lo 0 = 3 ∧
    positionAt (localField S c E (fun _ => false) 1) 0 2 = some p ∧ positionAt (localField S c' E' (fun _ => false) 1) 0 2 = some p' ∧
    p < p' := by
  obtain ⟨⟨a1, a2⟩, b1, b2⟩ := six_inner
  refine ⟨sixCells, (fun _ => 0, fun _ => 1 / 2), (fun _ => 1 / 2, fun _ => 1), sixProcess 0, sixProcess 1, 6004799503160661 / 2 ^ 54,
    6004799503160662 / 2 ^ 54, ⟨C121_symmetric_rounding.toRounding, fun _ _ => rfl, fun d => by fin_cases d; decide, fun d => by fin_cases d; decide⟩, sixCells_ordinary,
    fun d => ?_, fun d => ?_, a2, b1, ?_, ?_, by norm_num⟩
  · fin_cases d
    show innerExtentDouble _ _ _ _ 0 = _
    rw [innerExtentDouble, a1, a2]
    decide +kernel
  · fin_cases d
    show innerExtentDouble _ _ _ _ 0 = _
    rw [innerExtentDouble, b1, b2]
    decide +kernel
  · simp only [positionAt, localField, FieldShape.ofLimits]
    rw [a1, a2]
    decide +kernel
  · simp only [positionAt, localField, FieldShape.ofLimits]
    rw [b1, b2]
    decide +kernel

/-- **C125** FINDING: the last process may end before the upper end of the global extent. A single process with 49 cells, extent from 0 to 1: the
local extent ends below 1. -/
theorem C125_violated_upper_end : ∃ (S : Setup 1) (c : Coord S) (E : (Fin 1 → ℚ) × (Fin 1 → ℚ)),
    Initialised S rnd ∧ (c 0).1 + 1 = S.dims 0 ∧
    InnerExtentDouble (bounds S c).innerDomain (mpiGlobalDomain S) (fun _ => 0) (fun _ => 1) E ∧ E.2 0 < 1 := by
  refine ⟨⟨fun _ => 0, fun _ => 48, fun _ => 1, fun _ k => cutOf rnd 48 1 k, 1⟩, fun _ => 0, (fun _ => 0, fun _ => 1 - 1 / 2 ^ 53),
    ⟨C121_symmetric_rounding.toRounding, fun _ _ => rfl, fun d => by fin_cases d; decide, fun d => by fin_cases d; decide⟩, rfl, fun d => ?_, by norm_num⟩
  fin_cases d
  show innerExtentDouble _ _ _ _ 0 = _
  rw [innerExtentDouble, inner_lo, inner_hi]
  show (extentLimit (48 - 0 + 1) 0 1 0 >>= fun l => extentLimit (48 - 0 + 1) 0 1 (48 + 1 - 1 + 1) >>= fun h => some (l, h)) = _
  decide +kernel

/-- non-vacuity: six cells on two processes -/
example : (∀ d, OrdinaryExtent sixCells (fun _ => 0) (fun _ => 1) 0 d) ∧ (∀ (c : Coord sixCells) d, 1 ≤ innerWidth (bounds sixCells c) d) := by
  refine ⟨sixCells_ordinary, fun c d => ?_⟩
  obtain ⟨⟨a1, a2⟩, b1, b2⟩ := six_inner
  fin_cases d
  have hc : (c 0).1 < 2 := (c 0).2
  have : c = sixProcess 0 ∨ c = sixProcess 1 := by
    rcases h : (c 0).1 with _ | _ | k
    · left; funext d; fin_cases d; exact Fin.ext h
    · right; funext d; fin_cases d; exact Fin.ext h
    · omega
  show 1 ≤ innerWidth (bounds sixCells c) 0
  rcases this with rfl | rfl
  · rw [innerWidth, a1, a2]; norm_num
  · rw [innerWidth, b1, b2]; norm_num

/-- non-vacuity of `C125_power_of_two`: six cells with extent from 0 to 6 -/
example (d : Fin 1) : OrdinaryExtent sixCells (fun _ => 0) (fun _ => 6) 0 d ∧ sixCells.globalHi d + 1 ≤ 2 ^ 22 ∧
    cellWidth sixCells (fun _ => 0) (fun _ => (6 : ℚ)) d = 2 ^ (0 : ℤ) ∧ (0 : ℚ) = (0 : ℤ) * 2 ^ (0 : ℤ) := by
  have h := sixCells_ordinary d
  have e : (2 : ℚ) ^ (3 : ℤ) ≤ 2 ^ (300 : ℤ) := zpow_le_zpow_right₀ (by norm_num) (by norm_num)
  refine ⟨⟨h.lower, h.cells, h.lo, ?_, ?_, by simp, h.offset_le⟩, by show (5 : ℤ) + 1 ≤ _; norm_num, ?_, by simp⟩
  · rw [abs_of_pos (by norm_num)]
    exact le_trans (by norm_num) e
  · exact h.width.trans (by norm_num)
  · show ((6 : ℚ) - 0) / (((5 : ℤ) + 1 : ℤ) : ℚ) = _
    norm_num

end Schnek.Props
