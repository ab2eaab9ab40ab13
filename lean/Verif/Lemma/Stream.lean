import Verif.Lemma.Array
import Verif.Lemma.Range

namespace Schnek.Lemma.Stream

open Schnek.Arrays Spec Schnek.Lemma Function

variable {T : Type} {n : ℕ}

theorem foldl_append {α β : Type} (f : α → List β) (l : List α) (s : List β) :
    l.foldl (fun out x => out ++ f x) s = s ++ l.flatMap f := by
  induction l generalizing s with
  | nil => simp
  | cons x l ih => rw [List.foldl_cons, ih]; simp

theorem intList_cons {lo hi : ℤ} (h : lo ≤ hi) : intList lo hi = lo :: intList (lo + 1) hi := by
  have : (hi + 1 - lo).toNat = (hi + 1 - (lo + 1)).toNat + 1 := by omega
  simp only [intList]
  rw [this, List.range_succ_eq_map]
  simp only [List.map_cons, List.map_map, Nat.cast_zero, add_zero, List.cons.injEq, true_and]
  apply List.map_congr_left
  intro a _
  simp only [comp_apply, Nat.succ_eq_add_one]
  push_cast
  omega

theorem intList_concat {lo hi : ℤ} (h : lo ≤ hi) : intList lo hi = intList lo (hi - 1) ++ [hi] := by
  have : (hi + 1 - lo).toNat = (hi - 1 + 1 - lo).toNat + 1 := by omega
  simp only [intList]
  rw [this, List.range_succ, List.map_append]
  simp only [List.map_cons, List.map_nil, List.append_cancel_left_eq, List.cons.injEq, and_true]
  omega

/-- Separator written by the loops over the indices up to `d`. -/
def sepL (T : Type) (d : ℕ) (hi p : Idx (n + 1)) : List (Piece T) :=
  if p 0 < hi 0 then [.space]
  else (if 1 ≤ d then [.newline] else []) ++ (if 2 ≤ d ∧ ∀ i : Fin (n + 1), i.1 = 1 → p i = hi i then [.newline] else [])

theorem row_aux (f : ℤ → T) (hi : ℤ) : ∀ (k : ℕ) (lo : ℤ), hi = lo + k →
    Piece.val (f lo) :: (intList (lo + 1) hi).flatMap (fun x => [.space, .val (f x)]) =
      (intList lo hi).flatMap fun x => Piece.val (f x) :: (if x < hi then [.space] else [])
  | 0, lo, h => by
    obtain rfl : hi = lo := by simpa using h
    rw [intList_cons le_rfl]
    have : intList (hi + 1) hi = [] := by simp [intList]
    simp [this]
  | k + 1, lo, h => by
    have hlt : lo < hi := by push_cast at h; omega
    rw [intList_cons hlt.le, List.flatMap_cons, ← row_aux f hi k (lo + 1) (by push_cast at h; omega), intList_cons (by omega), if_pos hlt]
    simp

theorem row_eq (r : Range (n + 1)) (hne : ∀ i, r.lo i ≤ r.hi i) (g : Idx (n + 1) → T) (p : Idx (n + 1)) :
    row r g p = (enumF r 1 (by omega) p).flatMap fun q => .val (g q) :: sepL T 0 r.hi q := by
  rw [row, loopLE_eq, foldl_append]
  have := row_aux (fun x => g (update p 0 x)) (r.hi 0) (r.hi 0 - r.lo 0).toNat (r.lo 0) (by have := hne 0; omega)
  rw [List.singleton_append, this]
  simp only [enumF, List.flatMap_assoc, List.flatMap_cons, List.flatMap_nil, List.append_nil]
  refine List.flatMap_congr fun x _ => ?_
  have h0 : (⟨0, by omega⟩ : Fin (n + 1)) = 0 := rfl
  rw [h0]
  simp [sepL]

/-- The last position of the loops over the indices below `d`. -/
theorem enumF_last (r : Range (n + 1)) (hne : ∀ i, r.lo i ≤ r.hi i) :
    ∀ (d : ℕ) (h : d ≤ n + 1) (p : Idx (n + 1)), ∃ l q, enumF r d h p = l ++ [q] ∧ ∀ i : Fin (n + 1), i.1 < d → q i = r.hi i
  | 0, _, p => ⟨[], p, rfl, fun i hi => by omega⟩
  | d + 1, h, p => by
    obtain ⟨l, q, h1, h2⟩ := enumF_last r hne d (by omega) (update p ⟨d, h⟩ (r.hi ⟨d, h⟩))
    refine ⟨(intList (r.lo ⟨d, h⟩) (r.hi ⟨d, h⟩ - 1)).flatMap (fun x => enumF r d (Nat.le_of_succ_le h) (update p ⟨d, h⟩ x)) ++ l, q,
      ?_, fun i hi => ?_⟩
    · rw [enumF, intList_concat (hne _), List.flatMap_append, List.flatMap_singleton, h1, List.append_assoc]
    · by_cases hid : i.1 < d
      · exact h2 i hid
      · have hq : q ∈ enumF r d (by omega) (update p ⟨d, h⟩ (r.hi ⟨d, h⟩)) := by rw [h1]; simp
        rw [mem_enumF] at hq
        have hid' : i = ⟨d, h⟩ := Fin.ext (by simp only; omega)
        rw [hq.1 i (by omega), hid', update_self]

theorem rows_eq (r : Range (n + 1)) (hne : ∀ i, r.lo i ≤ r.hi i) (g : Idx (n + 1) → T) :
    ∀ (d : ℕ) (h : d < n + 1) (p : Idx (n + 1)),
      rows r g d h p = (enumF r (d + 1) h p).flatMap fun q => .val (g q) :: sepL T d r.hi q
  | 0, h, p => by rw [rows]; exact row_eq r hne g p
  | d + 1, h, p => by
    rw [rows, loopLE_eq]
    have h1 : ∀ (s : List (Piece T)), (intList (r.lo ⟨d + 1, h⟩) (r.hi ⟨d + 1, h⟩)).foldl (fun out x => out ++ rows r g d
        (Nat.lt_of_succ_lt h) (update p ⟨d + 1, h⟩ x) ++ (if d < 2 then [Piece.newline] else [])) s =
        s ++ (intList (r.lo ⟨d + 1, h⟩) (r.hi ⟨d + 1, h⟩)).flatMap fun x => rows r g d
        (Nat.lt_of_succ_lt h) (update p ⟨d + 1, h⟩ x) ++ (if d < 2 then [Piece.newline] else []) := by
      intro s
      rw [← foldl_append]
      simp only [List.append_assoc]
    rw [h1, List.nil_append, enumF, List.flatMap_assoc]
    refine List.flatMap_congr fun x _ => ?_
    rw [rows_eq r hne g d (Nat.lt_of_succ_lt h)]
    generalize update p ⟨d + 1, h⟩ x = p'
    obtain ⟨l, q, hl, hq⟩ := enumF_last r hne (d + 1) (by omega) p'
    have hinit : ∀ q' ∈ l, ∃ i : Fin (n + 1), i.1 < d + 1 ∧ q' i < r.hi i := by
      intro q' hq'
      by_contra hno
      push Not at hno
      have hm : q' ∈ enumF r (d + 1) (by omega) p' := by rw [hl]; simp [hq']
      have hm2 : q ∈ enumF r (d + 1) (by omega) p' := by rw [hl]; simp
      rw [mem_enumF] at hm hm2
      have : q' = q := funext fun i => by
        by_cases hi : i.1 < d + 1
        · rw [hq i hi]; exact le_antisymm (hm.2 i hi).2 (hno i hi)
        · rw [hm.1 i (by omega), hm2.1 i (by omega)]
      have hnd : (enumF r (d + 1) (by omega) p').Nodup := by
        refine (pairwise_enumF r (d + 1) (by omega) p').imp fun {a b} hab hc => ?_
        obtain ⟨k, _, hk⟩ := hab
        rw [hc] at hk; exact absurd hk (lt_irrefl _)
      rw [hl, List.nodup_append] at hnd
      exact hnd.2.2 q' hq' q (by simp) this
    rw [show enumF r (d + 1) (Nat.le_of_succ_le h) p' = enumF r (d + 1) (by omega) p' from rfl, hl, List.flatMap_append, List.flatMap_append,
      List.append_assoc]
    congr 1
    · refine List.flatMap_congr fun q' hq' => ?_
      obtain ⟨i, hi, hlt⟩ := hinit q' hq'
      congr 1
      simp only [sepL]
      by_cases h0 : q' 0 < r.hi 0
      · rw [if_pos h0, if_pos h0]
      · rw [if_neg h0, if_neg h0]
        have hi0 : i.1 ≠ 0 := fun hc => h0 (by rw [show (0 : Fin (n + 1)) = i from Fin.ext hc.symm]; exact hlt)
        rw [if_pos (show 1 ≤ d by omega), if_pos (show 1 ≤ d + 1 by omega)]
        congr 1
        rcases Nat.lt_or_ge d 2 with hd | hd
        · obtain rfl : d = 1 := by omega
          rw [if_neg (fun hc => absurd hc.1 (by omega)), if_neg]
          intro hc
          have := hc.2 i (by omega)
          omega
        · by_cases hc : ∀ i : Fin (n + 1), i.1 = 1 → q' i = r.hi i
          · rw [if_pos ⟨hd, hc⟩, if_pos ⟨by omega, hc⟩]
          · rw [if_neg (fun h => hc h.2), if_neg (fun h => hc h.2)]
    · simp only [List.flatMap_singleton, sepL]
      have h0 : ¬ q 0 < r.hi 0 := by rw [hq 0 (by simp)]; simp
      rw [if_neg h0, if_neg h0]
      rcases Nat.lt_or_ge d 2 with hd | hd
      · rcases (by omega : d = 0 ∨ d = 1) with rfl | rfl
        · simp
        · have : ∀ i : Fin (n + 1), i.1 = 1 → q i = r.hi i := fun i hi => hq i (by omega)
          rw [if_pos (show 1 ≤ 1 from le_rfl), if_pos (show 1 ≤ 1 + 1 by omega), if_neg (fun hc => absurd hc.1 (by omega)),
            if_pos (show 1 < 2 by omega), if_pos ⟨le_rfl, this⟩]
          simp
      · have : ∀ i : Fin (n + 1), i.1 = 1 → q i = r.hi i := fun i hi => hq i (by omega)
        rw [if_pos (show 1 ≤ d by omega), if_pos (show 1 ≤ d + 1 by omega), if_pos ⟨hd, this⟩,
          if_neg (show ¬ d < 2 by omega), if_pos ⟨by omega, this⟩]
        simp

end Schnek.Lemma.Stream
