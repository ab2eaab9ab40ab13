import Verif.Model.Storage
import Verif.Lemma.Range
import Mathlib.Tactic.Ring
import Mathlib.Algebra.BigOperators.Fin

/-!
# Helper lemmas for storage
-/

namespace Schnek.Lemma

open Schnek Schnek.Spec Function Storage

variable {n : ℕ}

theorem pre_init (lo hi p : Fin (n + 1) → ℤ) :
    ∀ (k : ℕ) (hk : k ≤ n), pre (fun i : Fin n => lo i.castSucc) (fun i => hi i.castSucc)
      (fun i => p i.castSucc) k hk = pre lo hi p k (by omega)
  | 0, _ => rfl
  | k + 1, hk => by
    simp only [pre]
    rw [pre_init lo hi p k]
    rfl

theorem posC_fastC (r : Range (n + 1)) (p : Idx (n + 1)) :
    fastC (dims r) r.lo + posC (dims r) p = (pre r.lo r.hi p (n + 1) le_rfl : ℤ) := by
  induction n with
  | zero =>
    simp only [fastC, posC, List.finRange_zero, List.foldl_nil, pre]
    push_cast
    simp
    ring
  | succ n ih =>
    have h := ih ⟨fun i => r.lo i.castSucc, fun i => r.hi i.castSucc⟩ (fun i => p i.castSucc)
    simp only [fastC, posC] at h ⊢
    rw [List.finRange_succ_last]
    simp only [List.foldl_append, List.foldl_map, List.foldl_cons, List.foldl_nil]
    have hd : ∀ i : Fin n, dims (⟨fun i => r.lo i.castSucc, fun i => r.hi i.castSucc⟩ : Range (n + 1)) i.succ
      = dims r i.castSucc.succ := fun i => rfl
    simp only [hd] at h
    have h0 : ∀ i : Fin n, (i.castSucc.succ : Fin (n + 2)) = i.succ.castSucc := fun i => rfl
    simp only [h0, Fin.castSucc_zero] at h ⊢
    rw [pre_init] at h
    rw [pre]
    have hlast : (Fin.last n).succ = (⟨n + 1, by omega⟩ : Fin (n + 2)) := rfl
    rw [hlast]
    set A := List.foldl (fun (p : Word) (i : Fin n) => p * (dims r i.succ.castSucc : Word) - (r.lo i.succ.castSucc : Word)) (-(r.lo 0 : Word)) (List.finRange n)
    set B := List.foldl (fun (pos : Word) (i : Fin n) => (p i.succ.castSucc : Word) + (dims r i.succ.castSucc : Word) * pos) (p 0 : Word) (List.finRange n)
    push_cast
    rw [← h]
    simp only [extent, dims]
    push_cast
    ring

theorem posF_eq (d index : Idx (n + 1)) :
    posF d index = posC (fun i => d i.rev) (fun i => index i.rev) := by
  simp only [posF, posC, List.finRange_reverse, List.foldl_map, Fin.rev_zero, Fin.rev_succ]

theorem fastF_eq (d lo : Idx (n + 1)) :
    fastF d lo = fastC (fun i => d i.rev) (fun i => lo i.rev) := by
  simp only [fastF, fastC, List.finRange_reverse, List.foldl_map, Fin.rev_zero, Fin.rev_succ]

/-- the range with the dimensions in reverse order -/
def Range.rev (r : Range n) : Range n := ⟨fun i => r.lo i.rev, fun i => r.hi i.rev⟩

/-- mathematical address -/
def addr (o : Order) (r : Range n) (p : Idx n) : ℤ :=
  match o with
  | .c => pre r.lo r.hi p n le_rfl
  | .fortran => pre (Range.rev r).lo (Range.rev r).hi (fun i => p i.rev) n le_rfl

theorem slot_eq (o : Order) (r : Range (n + 1)) (p : Idx (n + 1)) :
    slot o r p = ((addr o r p : ℤ) : Word).val := by
  cases o with
  | c => simp only [slot, addr]; rw [posC_fastC]
  | fortran =>
    simp only [slot, addr]
    rw [posF_eq, fastF_eq, ← posC_fastC (Range.rev r)]
    rfl

theorem size_foldl (r : Range n) :
    ∀ (k : ℕ) (hk : k ≤ n) (s : Word),
      (List.finRange k).foldl (fun s d => s * (dims r (Fin.castLE hk d) : Word)) s
        = s * (vol r.lo r.hi k hk : ℤ)
  | 0, _, s => by simp [vol]
  | k + 1, hk, s => by
    rw [List.finRange_succ_last]
    simp only [List.foldl_append, List.foldl_map, List.foldl_cons, List.foldl_nil, vol]
    have := size_foldl r k (Nat.le_of_succ_le hk) s
    have h0 : ∀ i : Fin k, Fin.castLE hk i.castSucc = Fin.castLE (Nat.le_of_succ_le hk) i :=
      fun i => rfl
    simp only [h0]
    rw [this]
    push_cast
    have h1 : Fin.castLE hk (Fin.last k) = ⟨k, hk⟩ := rfl
    rw [h1]
    simp only [dims, extent]
    push_cast
    ring

theorem size_eq (r : Range n) : Storage.size r = ((vol r.lo r.hi n le_rfl : ℤ) : Word) := by
  have := size_foldl r n le_rfl 1
  simpa [Storage.size] using this

theorem vol_eq_prod (lo hi : Fin n → ℤ) :
    ∀ (k : ℕ) (hk : k ≤ n), vol lo hi k hk = ∏ i : Fin k, extent lo hi (Fin.castLE hk i)
  | 0, _ => by simp [vol]
  | k + 1, hk => by
    rw [vol, vol_eq_prod lo hi k, Fin.prod_univ_castSucc]
    rfl

theorem vol_full (lo hi : Fin n → ℤ) : vol lo hi n le_rfl = ∏ i : Fin n, extent lo hi i := by
  rw [vol_eq_prod]; rfl

theorem vol_rev (r : Range n) :
    vol (Range.rev r).lo (Range.rev r).hi n le_rfl = vol r.lo r.hi n le_rfl := by
  rw [vol_full, vol_full]
  exact Equiv.prod_comp Fin.revPerm (fun i => extent r.lo r.hi i)

theorem word_val {a : ℤ} (h0 : 0 ≤ a) (h1 : a < 2 ^ 64) : ((a : ℤ) : Word).val = a.toNat := by
  obtain ⟨m, rfl⟩ := Int.eq_ofNat_of_zero_le h0
  rw [Int.cast_natCast, ZMod.val_natCast, Int.toNat_natCast, Nat.mod_eq_of_lt]
  have : (m : ℤ) < ((2 ^ 64 : ℕ) : ℤ) := by simpa using h1
  exact_mod_cast this

theorem addr_bounds (o : Order) (r : Range n) {p : Idx n} (hp : InBox r.lo r.hi p) :
    0 ≤ addr o r p ∧ addr o r p < vol r.lo r.hi n le_rfl := by
  cases o with
  | c => exact pre_bounds n le_rfl (inBoxK_of_inBox hp n)
  | fortran =>
    rw [← vol_rev]
    exact pre_bounds n le_rfl (inBoxK_of_inBox ((inBox_rev_iff _ _ _).mpr hp) n)

theorem addr_injective (o : Order) (r : Range n) {p q : Idx n} (hp : InBox r.lo r.hi p)
    (hq : InBox r.lo r.hi q) (h : addr o r p = addr o r q) : p = q := by
  cases o with
  | c => exact pre_injective hp hq h
  | fortran =>
    exact rev_injective (pre_injective ((inBox_rev_iff r.lo r.hi p).mpr hp) ((inBox_rev_iff r.lo r.hi q).mpr hq) h)

theorem addr_surjective (o : Order) (r : Range n) (hne : ∀ i, r.lo i ≤ r.hi i) (a : ℤ) (h0 : 0 ≤ a)
    (h1 : a < vol r.lo r.hi n le_rfl) : ∃ p, InBox r.lo r.hi p ∧ addr o r p = a := by
  cases o with
  | c =>
    obtain ⟨p, hp, ha, -⟩ := pre_surjective (fun _ => 0) n le_rfl a (fun i _ => hne i) h0 h1
    exact ⟨p, inBox_of_inBoxK hp, ha⟩
  | fortran =>
    rw [← vol_rev] at h1
    obtain ⟨p, hp, ha, -⟩ := pre_surjective (lo := (Range.rev r).lo) (hi := (Range.rev r).hi)
      (fun _ => 0) n le_rfl a (fun i _ => hne i.rev) h0 h1
    refine ⟨fun i => p i.rev, (inBox_rev_iff _ _ _).mp ?_, ?_⟩
    · simpa [Range.rev] using inBox_of_inBoxK hp
    · simpa [addr] using ha

/-- the order in which the storage order enumerates the indices -/
def orderLt : Order → (Fin n → ℤ) → (Fin n → ℤ) → Prop
  | .c => LexLt
  | .fortran => ColexLt

theorem orderLt_iff_addr (o : Order) (r : Range n) {p q : Idx n} (hp : InBox r.lo r.hi p)
    (hq : InBox r.lo r.hi q) : orderLt o p q ↔ addr o r p < addr o r q := by
  cases o with
  | c => exact lexLt_iff_pre hp hq
  | fortran =>
    simp only [orderLt, addr]
    rw [colexLt_iff_rev]
    exact lexLt_iff_pre ((inBox_rev_iff r.lo r.hi p).mpr hp) ((inBox_rev_iff r.lo r.hi q).mpr hq)

theorem slot_toNat (o : Order) (r : Range (n + 1)) {p : Idx (n + 1)}
    (hsize : vol r.lo r.hi (n + 1) le_rfl < 2 ^ 64) (hp : InBox r.lo r.hi p) :
    (slot o r p : ℤ) = addr o r p := by
  have hb := addr_bounds o r hp
  rw [slot_eq, word_val hb.1 (by omega)]
  omega

theorem size_toNat (r : Range n) (hsize : vol r.lo r.hi n le_rfl < 2 ^ 64)
    (h0 : 0 ≤ vol r.lo r.hi n le_rfl) : ((Storage.size r).val : ℤ) = vol r.lo r.hi n le_rfl := by
  rw [size_eq, word_val h0 hsize]
  omega

/-! ## strides -/

theorem strideLoopC_mul (d : Idx n) (dim : Fin n) :
    ∀ (k : ℕ) (h : k ≤ n) (s : Word), strideLoopC d dim k h s = s * strideLoopC d dim k h 1
  | 0, _, s => by simp [strideLoopC]
  | k + 1, h, s => by
    simp only [strideLoopC]
    by_cases hc : k > dim
    · rw [if_pos hc, if_pos hc, strideLoopC_mul d dim k _ (s * _), strideLoopC_mul d dim k _ (1 * _)]
      ring
    · rw [if_neg hc, if_neg hc]; simp

theorem strideLoopC_le (d : Idx n) (dim : Fin n) :
    ∀ (k : ℕ) (h : k ≤ n) (s : Word), k ≤ dim.1 + 1 → strideLoopC d dim k h s = s
  | 0, _, s, _ => by simp [strideLoopC]
  | k + 1, h, s, hk => by
    simp only [strideLoopC]
    rw [if_neg (by omega)]

theorem pre_step (r : Range n) (p : Idx n) (d : Fin n) :
    ∀ (k : ℕ) (hk : k ≤ n), ((pre r.lo r.hi (update p d (p d + 1)) k hk : ℤ) : Word)
      = (pre r.lo r.hi p k hk : ℤ) + if d.1 < k then strideLoopC (dims r) d k hk 1 else 0
  | 0, _ => by simp [pre]
  | k + 1, hk => by
    simp only [pre]
    push_cast
    rw [pre_step r p d k]
    rcases lt_trichotomy d.1 k with h | h | h
    · rw [if_pos h, if_pos (by omega), strideLoopC, if_pos h, strideLoopC_mul _ _ _ _ (1 * _),
        update_of_ne (by intro hc; rw [← hc] at h; simp at h)]
      simp only [dims, extent]
      push_cast
      ring
    · subst h
      rw [if_neg (by omega), if_pos (by omega), strideLoopC_le _ _ _ _ _ le_rfl]
      simp
      ring
    · rw [if_neg (by omega), if_neg (by omega),
        update_of_ne (by intro hc; rw [← hc] at h; simp at h)]
      simp

theorem strideF_eq_rev (d : Idx n) (dim : Fin n) :
    strideF d dim = strideC (fun i => d i.rev) dim.rev := by
  have key : ∀ (m : ℕ) (hm : m ≤ dim.1), strideC (fun i => d i.rev) dim.rev =
      strideLoopF d m (by omega) * strideLoopC (fun i => d i.rev) dim.rev (n - m) (by omega) 1 := by
    intro m
    induction m with
    | zero => intro _; simp [strideLoopF, strideC]
    | succ m ih =>
      intro hm
      rw [ih (by omega)]
      have e : n - m = (n - (m + 1)) + 1 := by omega
      have : strideLoopC (fun i => d i.rev) dim.rev (n - m) (by omega) 1
          = strideLoopC (fun i => d i.rev) dim.rev ((n - (m + 1)) + 1) (by omega) 1 := by
        congr 1
      rw [this, strideLoopC, if_pos (by rw [Fin.val_rev]; omega), strideLoopC_mul _ _ _ _ (1 * _), strideLoopF]
      have e2 : (Fin.rev ⟨n - (m + 1), by omega⟩ : Fin n) = ⟨m, by omega⟩ := by
        apply Fin.ext; rw [Fin.val_rev]; simp only; omega
      simp only [e2]
      ring
  rw [key dim.1 le_rfl, strideLoopC_le _ _ _ _ _ (by rw [Fin.val_rev]; omega), strideF]
  simp

theorem addr_step (o : Order) (r : Range n) (p : Idx n) (d : Fin n) :
    ((addr o r (update p d (p d + 1)) : ℤ) : Word) = (addr o r p : ℤ) + stride o r d := by
  cases o with
  | c =>
    simp only [addr, stride, strideC]
    rw [pre_step, if_pos d.2]
  | fortran =>
    simp only [addr, stride]
    rw [strideF_eq_rev]
    have : (fun i : Fin n => update p d (p d + 1) i.rev)
        = update (fun i : Fin n => p i.rev) d.rev ((fun i : Fin n => p i.rev) d.rev + 1) := by
      funext i
      by_cases h : i = d.rev
      · subst h; simp
      · rw [update_of_ne h, update_of_ne]
        intro hc; apply h; rw [← hc]; simp
    rw [this, pre_step, if_pos d.rev.2]
    rfl

end Schnek.Lemma
