import Verif.Lemma.AccumulateOrder
import Verif.Props.Exchange
import Verif.Props.MpiSchedule
import Verif.Model.DoubleValue

/-!
# C124: `accumulate` with rounding errors
-/

namespace Schnek.Props

open Schnek Schnek.Spec Schnek.Lemma Schnek.Mpi Schnek.Lemma.Exchange Schnek.Lemma.Mpi Schnek.Lemma.MpiAccumulate
  Schnek.Lemma.AccumulateOrder Schnek.Lemma.MpiSchedule Schnek.Binary64 Schnek.Lemma.Binary64 Function

variable {n : ℕ} {T : Type}

/-- values together with the numbers that have been added up -/
private def Traced (T : Type) [Add T] := {x : T × Multiset T // SumOf x.2 x.1}

private instance [Add T] : Add (Traced T) := ⟨fun a b => ⟨(a.1.1 + b.1.1, a.1.2 + b.1.2), .add a.2 b.2⟩⟩

private theorem sum_singletons {α : Type} (s : Finset α) (f : α → T) : ∑ q ∈ s, ({f q} : Multiset T) = s.val.map f := by
  rw [Finset.sum, show (fun q => ({f q} : Multiset T)) = (fun a => {a}) ∘ f from rfl, ← Multiset.map_map, Multiset.sum_map_singleton]

private theorem serial_exists [Add T] (B : Boundary n) (hδ : 1 ≤ B.delta) (hw : ∀ i, B.delta ≤ innerWidth B i) (g : GridMap n T)
    (hcov : ∀ p ∈ box B.size, g.range.inside p = true) :
    ∃ g' : GridMap n T, (∀ out, Serial.Accumulate B g out ↔ out = some g') ∧ g'.range = g.range ∧
      (∀ p, p ∉ box B.size → g'.cell p = g.cell p) ∧
      ((∀ i, 2 * B.delta ≤ innerWidth B i) → ∀ e, Agree B e g'.cell) := by
  obtain ⟨R, c⟩ := g
  have hB : Wide B := ⟨hδ, hw⟩
  obtain ⟨c', D', e, hD', i1, i2⟩ := overDims_inv (Serial.AccumulateDim B) R
    (fun D c' => (∀ p, ¬ InBox B.size.lo B.size.hi p → c' p = c p) ∧
      ((∀ i, 2 * B.delta ≤ innerWidth B i) → ∀ e ∈ D, Agree B e c'))
    (by
      rintro D d c₁ hD ⟨h1, h2⟩
      obtain ⟨c', e, a1, a2⟩ := accDim_plain hB d R hcov c₁
      refine ⟨c', e, fun p hp => by rw [a1 p hp, h1 p hp], fun hw x hx => ?_⟩
      by_cases hxd : x = d
      · subst hxd; exact (a2 (hw _)).1
      · exact (a2 (hw d)).2 x hxd (h2 hw x ((Finset.mem_insert.mp hx).resolve_left hxd)))
    (List.finRange n) ∅ c (List.nodup_finRange n) (by simp) ⟨fun _ _ => rfl, fun _ e he => by simp at he⟩
  exact ⟨⟨R, c'⟩, e, rfl, fun p hp => i1 p hp, fun hw e => i2 hw e ((hD' e).mpr (Or.inr (List.mem_finRange e)))⟩

/-- **C124** `accumulate(grid)` of the serial subdivision, for any addition whatsoever: it terminates without touching a cell outside of the grid, and
then a cell holds the sum, in some order, of the periodic images of the cell, each of them once. Compare C19. -/
theorem C124_serial [Add T] (B : Boundary n) (hδ : 1 ≤ B.delta)
    (hw : ∀ i, B.delta ≤ innerWidth B i) (g : GridMap n T) (hcov : ∀ p ∈ box B.size, g.range.inside p = true) :
    ∃ g' : GridMap n T, (∀ out, Serial.Accumulate B g out ↔ out = some g') ∧ g'.range = g.range ∧
      (∀ p ∈ box B.size,
        (∀ i, 2 * B.delta ≤ innerWidth B i ∨ (B.innerDomain.lo i ≤ p i ∧ p i ≤ B.innerDomain.hi i)) →
        SumOf (((Finset.Icc B.size.lo B.size.hi).filter (fun q => ∀ i, innerWidth B i ∣ q i - p i)).val.map g.cell) (g'.cell p)) ∧
      (∀ p, p ∉ box B.size → g'.cell p = g.cell p) := by
  obtain ⟨g', e1, e2, e3, -⟩ := serial_exists B hδ hw g hcov
  refine ⟨g', e1, e2, fun p hp hc => ?_, e3⟩
  -- the same with traced values
  let t : GridMap n (Traced T) := ⟨g.range, fun p => ⟨(g.cell p, {g.cell p}), .single _⟩⟩
  obtain ⟨t', f1, -, -, -⟩ := serial_exists B hδ hw t hcov
  have ht := (f1 _).mpr rfl
  have h1 := acc_map (fun x : Traced T => x.1.1) (fun _ _ => rfl) B t _ ht
  have h2 := acc_map (fun x : Traced T => x.1.2) (fun _ _ => rfl) B t _ ht
  have h1' := Option.some.inj ((e1 _).mp h1)
  obtain ⟨s', s1, -, s3, -⟩ := C19_accumulate_sums_images B hδ hw (gmap (fun x : Traced T => x.1.2) t) hcov
  have h2' := Option.some.inj ((s1 _).mp h2)
  have h3 := s3 p hp hc
  rw [← h2'] at h3
  rw [← h1']
  have h4 := (t'.cell p).2
  have h5 : (t'.cell p).1.2 =
      ((Finset.Icc B.size.lo B.size.hi).filter (fun q => ∀ i, innerWidth B i ∣ q i - p i)).val.map g.cell := by
    exact h3.trans (sum_singletons _ g.cell)
  rw [h5] at h4
  exact h4

/-- **C124** then all periodic images of a cell hold the same value, without any difference due to rounding -/
theorem C124_serial_copies [Add T] (B : Boundary n) (hδ : 1 ≤ B.delta)
    (hw : ∀ i, 2 * B.delta ≤ innerWidth B i) (g g' : GridMap n T) (hcov : ∀ p ∈ box B.size, g.range.inside p = true)
    (h : Serial.Accumulate B g (some g')) (p q : Idx n) (hp : p ∈ box B.size) (hq : q ∈ box B.size)
    (himg : ∀ i, innerWidth B i ∣ q i - p i) : g'.cell p = g'.cell q := by
  obtain ⟨g₁, e1, -, -, e4⟩ := serial_exists B hδ (fun i => by have := hw i; omega) g hcov
  obtain rfl := Option.some.inj ((e1 _).mp h)
  have hA := e4 hw
  -- from p to q, one dimension after the other
  have key : ∀ D : Finset (Fin n), g'.cell p = g'.cell (fun i => if i ∈ D then q i else p i) := by
    intro D
    induction D using Finset.induction_on with
    | empty => simp
    | insert d D hd ih =>
      have hr : InBox B.size.lo B.size.hi (fun i => if i ∈ D then q i else p i) := fun i => by
        show B.size.lo i ≤ (if i ∈ D then q i else p i) ∧ (if i ∈ D then q i else p i) ≤ B.size.hi i
        split
        · exact hq i
        · exact hp i
      have := hA d _ (q d) hr (hq d).1 (hq d).2 (by rw [if_neg hd]; exact himg d)
      rw [ih, this]
      congr 1
      funext i
      by_cases hi : i = d
      · subst hi; simp
      · simp [hi]
  have := key Finset.univ
  simpa using this

private theorem mpi_exists [Add T] (S : Setup n) (hδ : 1 ≤ S.delta) (hw : ∀ c i, S.delta ≤ innerWidth (bounds S c) i)
    (hfit : ∀ c, S.delta * ∏ i, ((bounds S c).size.hi i - (bounds S c).size.lo i + 1) < 2 ^ 31)
    (hD : ∀ i, 0 < S.dims i)
    (W : World S T) (hcov : ∀ c, ∀ p ∈ box (bounds S c).size, (W c).range.inside p = true) :
    ∃ W' : World S T, (∀ W'', Mpi.Accumulate S W W'' ↔ W'' = W') ∧ (∀ c, (W' c).range = (W c).range) ∧
      (∀ c p, p ∉ box (bounds S c).size → (W' c).cell p = (W c).cell p) ∧
      ((∀ c i, 2 * S.delta ≤ innerWidth (bounds S c) i) → ∀ e, UAgree hD e W') := by
  have hS : Good S := ⟨hδ, hw, hfit⟩
  have hust : (∀ c i, 2 * S.delta ≤ innerWidth (bounds S c) i) → ∀ i x, ust S i x + 2 * S.delta ≤ ust S i (x + 1) := fun h i x => by
    have h := h (cof hD (fun _ => x)) i
    rw [innerWidth_eq, cof_val] at h
    rw [ust_succ hD, ust]
    linarith
  obtain ⟨W', D', e, hD', i1, i2, i3⟩ := mpi_overDims_inv (Mpi.AccumulateDim S)
    (fun D W' => (∀ c, (W' c).range = (W c).range) ∧
      (∀ c p, p ∉ box (bounds S c).size → (W' c).cell p = (W c).cell p) ∧
      ((∀ c i, 2 * S.delta ≤ innerWidth (bounds S c) i) → ∀ e ∈ D, UAgree hD e W'))
    (by
      rintro D d W₁ hd ⟨h1, h2, h3⟩
      obtain ⟨W', e, r, a1, a2⟩ := mpi_accDim_agree hS hD d W₁ (fun c p hp => by rw [h1]; exact hcov c p hp)
      refine ⟨W', e, fun c => (r c).trans (h1 c), fun c p hp => by rw [a1 c p hp, h2 c p hp], fun hw x hx => ?_⟩
      by_cases hxd : x = d
      · subst hxd; exact (a2 (hust hw _)).1
      · exact (a2 (hust hw d)).2 x hxd (h3 hw x ((Finset.mem_insert.mp hx).resolve_left hxd)))
    (List.finRange n) ∅ W (List.nodup_finRange n) (by simp) ⟨fun _ => rfl, fun _ _ _ => rfl, fun _ e he => by simp at he⟩
  exact ⟨W', e, i1, i2, fun hw e => i3 hw e ((hD' e).mpr (Or.inr (List.mem_finRange e)))⟩

/-- **C124** `accumulate(grid)` with MPI, called by all processes, for any addition whatsoever: it terminates without access outside of a grid or a
buffer, and then a cell holds the sum, in some order, of all cells of all processes, ghost cells included, which stand for the same cell of the
periodic global domain, each of them once. Compare C56. -/
theorem C124_mpi [Add T] (S : Setup n) (hδ : 1 ≤ S.delta) (hD : ∀ i, 0 < S.dims i)
    (hw : ∀ c i, S.delta ≤ innerWidth (bounds S c) i)
    (hfit : ∀ c, S.delta * ∏ i, ((bounds S c).size.hi i - (bounds S c).size.lo i + 1) < 2 ^ 31)
    (W : World S T) (hcov : ∀ c, ∀ p ∈ box (bounds S c).size, (W c).range.inside p = true) :
    ∃ W' : World S T, (∀ W'', Mpi.Accumulate S W W'' ↔ W'' = W') ∧ (∀ c, (W' c).range = (W c).range) ∧
      (∀ c, ∀ p ∈ box (bounds S c).size,
        (∀ i, (∀ c' : Coord S, 2 * S.delta ≤ innerWidth (bounds S c') i) ∨ (bounds S c).innerDomain.lo i ≤ p i) →
        SumOf (∑ c' : Coord S, ((Finset.Icc (bounds S c').size.lo (bounds S c').size.hi).filter
          (fun q => ∀ i, (S.globalHi i + 1) ∣ q i - p i)).val.map (W c').cell) ((W' c).cell p)) ∧
      (∀ c p, p ∉ box (bounds S c).size → (W' c).cell p = (W c).cell p) := by
  obtain ⟨W', e1, e2, e3, -⟩ := mpi_exists S hδ hw hfit hD W hcov
  refine ⟨W', e1, e2, fun c p hp hc => ?_, e3⟩
  let t : World S (Traced T) := fun c => ⟨(W c).range, fun p => ⟨((W c).cell p, {(W c).cell p}), .single _⟩⟩
  obtain ⟨t', f1, -, -, -⟩ := mpi_exists S hδ hw hfit hD t hcov
  have ht := (f1 _).mpr rfl
  have h1 := mpi_acc_map (fun x : Traced T => x.1.1) (fun _ _ => rfl) ht
  have h2 := mpi_acc_map (fun x : Traced T => x.1.2) (fun _ _ => rfl) ht
  have h1' := (e1 _).mp h1
  obtain ⟨s', s1, -, s3, -⟩ := C56_accumulate_sums_images S hδ hw hfit (wmap (fun x : Traced T => x.1.2) t) hcov
  have h2' := (s1 _).mp h2
  have h3 := s3 c p hp hc
  rw [← h2'] at h3
  rw [← h1']
  have h4 := ((t' c).cell p).2
  have h5 : ((t' c).cell p).1.2 = ∑ c' : Coord S, ((Finset.Icc (bounds S c').size.lo (bounds S c').size.hi).filter
          (fun q => ∀ i, (S.globalHi i + 1) ∣ q i - p i)).val.map (W c').cell :=
    h3.trans (Finset.sum_congr rfl fun c' _ => sum_singletons _ (W c').cell)
  rw [h5] at h4
  exact h4

/-- **C124** then all copies of a cell in all processes hold the same value, without any difference due to rounding -/
theorem C124_mpi_copies [Add T] (S : Setup n) (hδ : 1 ≤ S.delta)
    (hw : ∀ c i, 2 * S.delta ≤ innerWidth (bounds S c) i)
    (hfit : ∀ c, S.delta * ∏ i, ((bounds S c).size.hi i - (bounds S c).size.lo i + 1) < 2 ^ 31)
    (W W' : World S T) (hcov : ∀ c, ∀ p ∈ box (bounds S c).size, (W c).range.inside p = true) (h : Mpi.Accumulate S W W')
    (c c' : Coord S) (p q : Idx n) (hp : p ∈ box (bounds S c).size) (hq : q ∈ box (bounds S c').size)
    (himg : ∀ i, (S.globalHi i + 1) ∣ q i - p i) : (W' c).cell p = (W' c').cell q := by
  have hD : ∀ i, 0 < S.dims i := fun i => (Nat.zero_le _).trans_lt (c i).2
  obtain ⟨W₁, e1, -, -, e4⟩ := mpi_exists S hδ (fun c i => by have := hw c i; omega) hfit hD W hcov
  obtain rfl := (e1 _).mp h
  have hA := e4 hw
  choose t ht using himg
  -- the unrolled processes
  have hc : ∀ (c : Coord S) (s : Fin n → ℤ) i, ((c i).1 + (S.dims i : ℤ) * s i) % (S.dims i : ℤ) = (c i).1 ∧
      ((c i).1 + (S.dims i : ℤ) * s i) / (S.dims i : ℤ) = s i := fun c s i => by
    have h1 := (c i).2
    have h2 : (S.dims i : ℤ) ≠ 0 := by omega
    rw [Int.add_mul_emod_self_left, Int.add_mul_ediv_left _ _ h2, Int.emod_eq_of_lt (by omega) (by omega),
      Int.ediv_eq_zero_of_lt (by omega) (by omega), zero_add]
    exact ⟨rfl, rfl⟩
  have hcof : ∀ (c : Coord S) (s : Fin n → ℤ), cof hD (fun i => (c i).1 + (S.dims i : ℤ) * s i) = c := fun c s => by
    funext i
    apply Fin.ext
    rw [cof_val, (hc c s i).1]
    rfl
  have hv1 : val hD W' (fun i => (c i).1 + (S.dims i : ℤ) * 0) p = (W' c).cell p := by
    rw [val, hcof c (fun _ => 0)]
    congr 1
    funext i
    rw [pos, (hc c (fun _ => 0) i).2]
    ring
  have hp2 : pos S (fun i => (c' i).1 + (S.dims i : ℤ) * -t i) p = q := by
    funext i
    rw [pos, (hc c' (fun i => -t i) i).2]
    linarith [ht i]
  have hv2 : val hD W' (fun i => (c' i).1 + (S.dims i : ℤ) * -t i) p = (W' c').cell q := by
    rw [val, hcof c' (fun i => -t i), hp2]
  have hb1 : UBox S (fun i => (c i).1 + (S.dims i : ℤ) * 0) p := by
    refine (box_iff hD _ p).mp ?_
    rw [hcof c (fun _ => 0)]
    have : pos S (fun i => (c i).1 + (S.dims i : ℤ) * 0) p = p := by
      funext i
      rw [pos, (hc c (fun _ => 0) i).2]
      ring
    rw [this]
    exact hp
  have hb2 : UBox S (fun i => (c' i).1 + (S.dims i : ℤ) * -t i) p := by
    refine (box_iff hD _ p).mp ?_
    rw [hcof c' (fun i => -t i), hp2]
    exact hq
  rw [← hv1, ← hv2]
  generalize (fun i => ((c i).1 : ℤ) + (S.dims i : ℤ) * 0) = m at hb1
  generalize (fun i => ((c' i).1 : ℤ) + (S.dims i : ℤ) * -t i) = m' at hb2
  have hb : ∀ D : Finset (Fin n), UBox S (fun i => if i ∈ D then m' i else m i) p := fun D i => by
    show ust S i (if i ∈ D then m' i else m i) - _ ≤ _ ∧ _ < ust S i ((if i ∈ D then m' i else m i) + 1) + _
    split
    · exact hb2 i
    · exact hb1 i
  have key : ∀ D : Finset (Fin n), val hD W' m p = val hD W' (fun i => if i ∈ D then m' i else m i) p := by
    intro D
    induction D using Finset.induction_on with
    | empty => simp
    | insert d D hd ih =>
      have e : update (fun i => if i ∈ D then m' i else m i) d (m' d) = fun i => if i ∈ insert d D then m' i else m i := by
        funext i
        by_cases hi : i = d
        · subst hi; simp
        · simp [hi]
      have := hA d _ p (m' d) (hb D) (by rw [e]; exact hb _)
      rw [ih, this, e]
  have := key Finset.univ
  simpa using this

/-- **C124** The same under every schedule of the processes: `accumulate(grid)` ends, and then a cell holds the sum, in some order, of all copies of
the cell in all processes; and copies of a cell hold the same value if the inner widths are at least twice the ghost width. Compare C106. -/
theorem C124_any_schedule [Add T] (S : Setup n) (hδ : 1 ≤ S.delta) (hD : ∀ i, 0 < S.dims i)
    (hw : ∀ c i, S.delta ≤ innerWidth (bounds S c) i)
    (hfit : ∀ c, S.delta * ∏ i, ((bounds S c).size.hi i - (bounds S c).size.lo i + 1) < 2 ^ 31)
    (M : Coord S → Memory (GridMap n T) T) (hcov : ∀ c, ∀ p ∈ box (bounds S c).size, (M c).grid.range.inside p = true) :
    Completes (accumulateCode S) (Config.start M) fun W' =>
      (∀ c, (W' c).range = (M c).grid.range) ∧
      (∀ c, ∀ p ∈ box (bounds S c).size,
        (∀ i, (∀ c' : Coord S, 2 * S.delta ≤ innerWidth (bounds S c') i) ∨ (bounds S c).innerDomain.lo i ≤ p i) →
        SumOf (∑ c' : Coord S, ((Finset.Icc (bounds S c').size.lo (bounds S c').size.hi).filter
          (fun q => ∀ i, (S.globalHi i + 1) ∣ q i - p i)).val.map (M c').grid.cell) ((W' c).cell p)) ∧
      ((∀ c i, 2 * S.delta ≤ innerWidth (bounds S c) i) → ∀ c c' p q, p ∈ box (bounds S c).size → q ∈ box (bounds S c').size →
        (∀ i, (S.globalHi i + 1) ∣ q i - p i) → (W' c).cell p = (W' c').cell q) ∧
      ∀ c p, p ∉ box (bounds S c).size → (W' c).cell p = (M c).grid.cell p := by
  obtain ⟨W', h1, h2, h3, h4⟩ := C124_mpi S hδ hD hw hfit (grids M) hcov
  have hrun := (h1 W').mpr rfl
  have h5 := fun hw' => C124_mpi_copies S hδ hw' hfit (grids M) W' hcov hrun
  obtain ⟨M', t, rfl⟩ := accumulate_together M hrun
  rw [← codeOf_accumulate]
  exact completes_of_together t ⟨h2, h3, h5, h4⟩

/-! ## sums in an unknown order -/

/-- **C124** With exact addition the order does not matter. -/
theorem C124_exact [AddCommMonoid T] (M : Multiset T) (a : T) (h : SumOf M a) : a = M.sum := by
  induction h with
  | single a => simp
  | add _ _ h1 h2 => rw [Multiset.sum_add, ← h1, ← h2]

/-- the rounding error of one addition -/
private theorem add_error (a b : Double) : |(a + b).val - (a.val + b.val)| ≤ |a.val + b.val| / 2 ^ 53 := by
  show |rnd (a.val + b.val) - (a.val + b.val)| ≤ _
  by_cases h : (2 : ℚ) ^ (-1022 : ℤ) ≤ |a.val + b.val|
  · exact rnd_rel h
  · -- small sums are exact
    push Not at h
    obtain ⟨m, e, hm, he, ha⟩ := a.2
    obtain ⟨m', e', hm', he', hb⟩ := b.2
    have mult : ∀ (m e : ℤ), -1074 ≤ e → ∃ k : ℤ, (m : ℚ) * 2 ^ e = k * 2 ^ (-1074 : ℤ) := fun m e he => by
      obtain ⟨d, hd⟩ := Int.le.dest he
      refine ⟨m * 2 ^ d, ?_⟩
      rw [← hd, zpow_add₀ (by norm_num)]
      push_cast
      rw [zpow_natCast]
      ring
    obtain ⟨k, hk⟩ := mult m e he
    obtain ⟨k', hk'⟩ := mult m' e' he'
    have e0 : a.val + b.val = ((k + k' : ℤ) : ℚ) * 2 ^ (-1074 : ℤ) := by rw [ha, hb, hk, hk']; push_cast; ring
    have hf : IsFormat (a.val + b.val) := by
      rw [e0]
      refine isFormat_of_le ?_ le_rfl
      rw [e0, abs_mul, abs_of_pos (two_pos _)] at h
      have h2 : (2 : ℚ) ^ (-1022 : ℤ) = 2 ^ 52 * 2 ^ (-1074 : ℤ) := by
        rw [show (-1022 : ℤ) = 52 + -1074 by norm_num, zpow_add₀ (by norm_num)]
        norm_cast
      rw [h2] at h
      have h3 := lt_of_mul_lt_mul_right h (two_pos _).le
      have h4 : |k + k'| < 2 ^ 52 := by exact_mod_cast h3
      omega
    rw [rnd_of_format hf, sub_self, abs_zero]
    positivity

/-- **C124** With `double` arithmetic a sum in any order of the values of `M` differs from the exact sum by at most
`((1 + 2^-53)^(number of additions) - 1)` times the sum of the absolute values. -/
theorem C124_error (M : Multiset Double) (a : Double) (h : SumOf M a) :
    |a.val - (M.map Double.val).sum| ≤ ((1 + 1 / 2 ^ 53) ^ (M.card - 1) - 1) * (M.map fun x => |x.val|).sum := by
  have key : 1 ≤ M.card ∧ |a.val - (M.map Double.val).sum| ≤ ((1 + 1 / 2 ^ 53) ^ (M.card - 1) - 1) * (M.map fun x => |x.val|).sum ∧
      |(M.map Double.val).sum| ≤ (M.map fun x => |x.val|).sum := by
    induction h with
    | single a => simp
    | @add M N a b h1 h2 ih1 ih2 =>
      obtain ⟨c1, e1, s1⟩ := ih1
      obtain ⟨c2, e2, s2⟩ := ih2
      rw [Multiset.card_add, Multiset.map_add, Multiset.map_add, Multiset.sum_add, Multiset.sum_add]
      generalize (M.map Double.val).sum = A at *
      generalize (N.map Double.val).sum = B at *
      generalize (M.map fun x => |x.val|).sum = X at *
      generalize (N.map fun x => |x.val|).sum = Y at *
      have hX : 0 ≤ X := (abs_nonneg _).trans s1
      have hY : 0 ≤ Y := (abs_nonneg _).trans s2
      have h0 := add_error a b
      obtain ⟨j, hj⟩ : ∃ j, M.card + N.card - 1 = j + 1 := ⟨M.card + N.card - 2, by omega⟩
      have p1 : ((1 : ℚ) + 1 / 2 ^ 53) ^ (M.card - 1) ≤ (1 + 1 / 2 ^ 53) ^ j := pow_le_pow_right₀ (by norm_num) (by omega)
      have p2 : ((1 : ℚ) + 1 / 2 ^ 53) ^ (N.card - 1) ≤ (1 + 1 / 2 ^ 53) ^ j := pow_le_pow_right₀ (by norm_num) (by omega)
      rw [hj, pow_succ]
      generalize ((1 : ℚ) + 1 / 2 ^ 53) ^ (M.card - 1) = P1 at *
      generalize ((1 : ℚ) + 1 / 2 ^ 53) ^ (N.card - 1) = P2 at *
      generalize ((1 : ℚ) + 1 / 2 ^ 53) ^ j = P at *
      refine ⟨by omega, ?_, (abs_add_le _ _).trans (add_le_add s1 s2)⟩
      have f1 : |a.val - A| ≤ (P - 1) * X := e1.trans (mul_le_mul_of_nonneg_right (by linarith) hX)
      have f2 : |b.val - B| ≤ (P - 1) * Y := e2.trans (mul_le_mul_of_nonneg_right (by linarith) hY)
      have g1 : |a.val + b.val| ≤ |a.val - A| + |b.val - B| + (X + Y) := by
        have : a.val + b.val = (a.val - A) + (b.val - B) + (A + B) := by ring
        rw [this]
        exact (abs_add_le _ _).trans (add_le_add (abs_add_le _ _) ((abs_add_le _ _).trans (add_le_add s1 s2)))
      have g2 : |(a + b).val - (A + B)| ≤ |(a + b).val - (a.val + b.val)| + (|a.val - A| + |b.val - B|) := by
        have : (a + b).val - (A + B) = ((a + b).val - (a.val + b.val)) + ((a.val - A) + (b.val - B)) := by ring
        rw [this]
        exact (abs_add_le _ _).trans (add_le_add le_rfl (abs_add_le _ _))
      have g3 := mul_le_mul_of_nonneg_right (show (0 : ℚ) ≤ 1 / 2 ^ 53 by norm_num) hX
      nlinarith
  exact key.2.1

/-- **C124** Whole numbers are added without any error as long as the sum of the absolute values is at most `2^53`. -/
theorem C124_integers (M : Multiset Double) (a : Double) (h : SumOf M a) (hint : ∀ x ∈ M, ∃ k : ℤ, x.val = k)
    (hsize : (M.map fun x => |x.val|).sum ≤ 2 ^ 53) : a.val = (M.map Double.val).sum := by
  have key : (∃ k : ℤ, a.val = k) ∧ a.val = (M.map Double.val).sum ∧ |a.val| ≤ (M.map fun x => |x.val|).sum := by
    induction h with
    | single a => simpa using hint a (by simp)
    | @add M N a b h1 h2 ih1 ih2 =>
      have n1 : 0 ≤ (M.map fun x => |x.val|).sum := Multiset.sum_nonneg fun x hx => by
        obtain ⟨y, _, rfl⟩ := Multiset.mem_map.mp hx; exact abs_nonneg _
      have n2 : 0 ≤ (N.map fun x => |x.val|).sum := Multiset.sum_nonneg fun x hx => by
        obtain ⟨y, _, rfl⟩ := Multiset.mem_map.mp hx; exact abs_nonneg _
      rw [Multiset.map_add, Multiset.sum_add] at hsize
      obtain ⟨⟨k, hk⟩, e1, s1⟩ := ih1 (fun x hx => hint x (Multiset.mem_add.mpr (Or.inl hx))) (by linarith)
      obtain ⟨⟨l, hl⟩, e2, s2⟩ := ih2 (fun x hx => hint x (Multiset.mem_add.mpr (Or.inr hx))) (by linarith)
      have hle : |a.val + b.val| ≤ (M.map fun x => |x.val|).sum + (N.map fun x => |x.val|).sum :=
        (abs_add_le _ _).trans (add_le_add s1 s2)
      have hr : (a + b).val = a.val + b.val := by
        show rnd (a.val + b.val) = _
        rw [hk, hl, ← Int.cast_add]
        refine rnd_int ?_
        have : |a.val + b.val| ≤ 2 ^ 53 := hle.trans hsize
        rw [hk, hl] at this
        exact_mod_cast this
      rw [hr, Multiset.map_add, Multiset.sum_add, Multiset.map_add, Multiset.sum_add]
      exact ⟨⟨k + l, by rw [hk, hl]; push_cast; rfl⟩, by rw [e1, e2], hle⟩
  exact key.2.1

/-- The order matters: `1`, `b` and `b`, for `b = 3·2^-55`, add up to `1` or to the next larger number. -/
example : ∃ one b : Double, SumOf (({one} + {b}) + {b}) (one + b + b) ∧ SumOf (({one} + {b}) + {b}) (one + (b + b)) ∧
    one + b + b ≠ one + (b + b) := by
  refine ⟨⟨1, ⟨1, 0, by norm_num, by norm_num, by norm_num⟩⟩, ⟨3 / 2 ^ 55, ⟨3, -55, by norm_num, by norm_num, by norm_num⟩⟩,
    .add (.add (.single _) (.single _)) (.single _), ?_, fun h => ?_⟩
  · rw [add_assoc]
    exact .add (.single _) (.add (.single _) (.single _))
  · have h1 := congrArg Double.val h
    change rnd (rnd (1 + 3 / 2 ^ 55) + 3 / 2 ^ 55) = rnd (1 + rnd (3 / 2 ^ 55 + 3 / 2 ^ 55)) at h1
    revert h1
    decide +kernel

/-- the hypotheses of C124 are met by a grid of `double` with 14 × 9 cells -/
example : let B : Boundary 2 := ⟨⟨![-2, -2], ![11, 6]⟩, 2⟩
    1 ≤ B.delta ∧ (∀ i, B.delta ≤ innerWidth B i) ∧ (∀ i, 2 * B.delta ≤ innerWidth B i) ∧
    ∃ g : GridMap 2 Double, (∀ p ∈ box B.size, g.range.inside p = true) ∧ ∃ p ∈ box B.size, (g.cell p).val = 3 / 2 ^ 55 :=
  ⟨by decide, by decide, by decide, ⟨⟨![-2, -2], ![11, 6]⟩, fun _ => ⟨3 / 2 ^ 55, ⟨3, -55, by norm_num, by norm_num, by norm_num⟩⟩⟩,
    fun p hp => (C01_inside_iff _ _).mpr hp, fun _ => 0, fun i => by fin_cases i <;> simp, rfl⟩

end Schnek.Props
