import Verif.Model.RangeChange
import Verif.Props.Range
import Mathlib.Tactic.FinCases

/-!
# C154: loops over a range that changes
-/

namespace Schnek.Props.RangeChange

open Schnek Schnek.Spec Schnek.Lemma Schnek.RangeChange Function

variable {n : ℕ}

/-- All limits of the range are between `L` and `H`. -/
def Limits (L H : Idx n) (r : Range n) : Prop := InBox L H r.lo ∧ InBox L H r.hi

private theorem incLoop_cases (r : Range n) : ∀ (d : ℕ) (hd : d ≤ n) (p : Idx n),
    (∀ i : Fin n, d ≤ i.1 → (RangeIter.incLoop r d hd p).1 i = p i) ∧
    (((RangeIter.incLoop r d hd p).2 = true ∧ ∀ i : Fin n, i.1 < d → (RangeIter.incLoop r d hd p).1 i = r.lo i ∧ r.hi i ≤ p i) ∨
     ((RangeIter.incLoop r d hd p).2 = false ∧ ∃ k : Fin n, k.1 < d ∧ (RangeIter.incLoop r d hd p).1 k = p k + 1 ∧ p k + 1 ≤ r.hi k ∧
       (∀ i : Fin n, i < k → (RangeIter.incLoop r d hd p).1 i = p i) ∧
       ∀ i : Fin n, k < i → i.1 < d → (RangeIter.incLoop r d hd p).1 i = r.lo i ∧ r.hi i ≤ p i))
  | 0, _, p => ⟨fun _ _ => rfl, .inl ⟨rfl, fun _ h => absurd h (Nat.not_lt_zero _)⟩⟩
  | d + 1, hd, p => by
    have hi0 : ∀ i : Fin n, i.1 = d → i = ⟨d, hd⟩ := fun i h => Fin.ext h
    by_cases hc : p ⟨d, hd⟩ + 1 > r.hi ⟨d, hd⟩
    · have he : RangeIter.incLoop r (d + 1) hd p =
          RangeIter.incLoop r d (Nat.le_of_succ_le hd) (update (update p ⟨d, hd⟩ (p ⟨d, hd⟩ + 1)) ⟨d, hd⟩ (r.lo ⟨d, hd⟩)) := by
        simp only [RangeIter.incLoop, update_self]
        rw [if_pos hc]
      rw [he, update_idem]
      obtain ⟨h1, h2⟩ := incLoop_cases r d (Nat.le_of_succ_le hd) (update p ⟨d, hd⟩ (r.lo ⟨d, hd⟩))
      have hd' := h1 ⟨d, hd⟩ le_rfl
      rw [update_self] at hd'
      refine ⟨fun i hi => ?_, ?_⟩
      · rw [h1 i (by omega), update_of_ne]
        rintro rfl; simp at hi
      · rcases h2 with ⟨h2, h3⟩ | ⟨h2, k, hk, h3, h4, h5, h6⟩
        · refine .inl ⟨h2, fun i hi => ?_⟩
          by_cases hid : i.1 = d
          · rw [hi0 i hid]; exact ⟨hd', by omega⟩
          · have := h3 i (by omega)
            rw [update_of_ne (fun e => hid (by rw [e]))] at this
            exact this
        · have hne : ∀ i : Fin n, i.1 < d → i ≠ ⟨d, hd⟩ := fun i hi e => by rw [e] at hi; simp at hi
          rw [update_of_ne (hne k hk)] at h3 h4
          refine .inr ⟨h2, k, by omega, h3, h4, fun i hi => ?_, fun i hi hi2 => ?_⟩
          · rw [h5 i hi, update_of_ne (hne i (lt_trans (Fin.lt_def.mp hi) hk))]
          · by_cases hid : i.1 = d
            · rw [hi0 i hid]; exact ⟨hd', by omega⟩
            · have := h6 i hi (by omega)
              rw [update_of_ne (fun e => hid (by rw [e]))] at this
              exact this
    · have he : RangeIter.incLoop r (d + 1) hd p = (update p ⟨d, hd⟩ (p ⟨d, hd⟩ + 1), false) := by
        simp only [RangeIter.incLoop, update_self]
        rw [if_neg hc]
      rw [he]
      refine ⟨fun i hi => ?_, .inr ⟨rfl, ⟨d, hd⟩, by simp, by simp, by omega, fun i hi => ?_, fun i hi hi2 => ?_⟩⟩
      · show update p _ _ i = p i
        rw [update_of_ne]; rintro rfl; simp at hi
      · show update p _ _ i = p i
        rw [update_of_ne (ne_of_lt hi)]
      · have := Fin.lt_def.mp hi; simp only at this; omega

/-- what advancing an iterator does -/
private theorem increment_cases (r : Range n) (p : Idx n) :
    ((⟨p, false⟩ : RangeIter n).increment r = r.iterEnd ∧ ∀ i, r.hi i ≤ p i) ∨
    ∃ (q : Idx n) (k : Fin n), (⟨p, false⟩ : RangeIter n).increment r = ⟨q, false⟩ ∧ q k = p k + 1 ∧ p k + 1 ≤ r.hi k ∧
      (∀ i, i < k → q i = p i) ∧ ∀ i, k < i → q i = r.lo i ∧ r.hi i ≤ p i := by
  obtain ⟨-, h⟩ := incLoop_cases r n le_rfl p
  rcases h with ⟨h1, h2⟩ | ⟨h1, k, -, h2, h3, h4, h5⟩
  · refine .inl ⟨?_, fun i => (h2 i i.2).2⟩
    simp only [RangeIter.increment, Range.iterEnd, h1, Bool.or_true, RangeIter.mk.injEq, and_true]
    exact funext fun i => (h2 i i.2).1
  · refine .inr ⟨_, k, ?_, h2, h3, h4, fun i hi => h5 i hi i.2⟩
    simp only [RangeIter.increment, h1, Bool.or_false]

private theorem lexLt_trans {p q s : Idx n} (h1 : LexLt p q) (h2 : LexLt q s) : LexLt p s := by
  obtain ⟨a, ha, ha'⟩ := h1
  obtain ⟨b, hb, hb'⟩ := h2
  rcases lt_trichotomy a b with h | h | h
  · exact ⟨a, fun j hj => (ha j hj).trans (hb j (lt_trans hj h)), by rw [← hb a h]; exact ha'⟩
  · subst h; exact ⟨a, fun j hj => (ha j hj).trans (hb j hj), lt_trans ha' hb'⟩
  · exact ⟨b, fun j hj => (ha j (lt_trans hj h)).trans (hb j hj), by rw [ha b h]; exact hb'⟩

private theorem unique {R : ℕ → Option (Range n)} {stop : ℕ → Option (RangeIter n)} {k : ℕ} {it : RangeIter n} {l l' : List (Idx n)}
    (h : Loop R stop k it l) (h' : Loop R stop k it l') : l = l' := by
  induction h generalizing l' with
  | done he =>
    cases h' with
    | done _ => rfl
    | step h1 h2 => rw [he] at h1; cases h1; exact absurd rfl h2
  | step he hne hr _ ih =>
    cases h' with
    | done h1 => rw [he] at h1; cases h1; exact absurd rfl hne
    | step _ _ hr' hl =>
      rw [hr] at hr'; cases hr'
      rw [ih hl]

private theorem from_pos {R : ℕ → Range n} {L H : Idx n} (hR : ∀ k, Limits L H (R k)) (m : ℕ) : ∀ (k : ℕ) (p : Idx n), InBox L H p →
    vol L H n le_rfl - pre L H p n le_rfl ≤ m →
    ∃ l, Loop (fun k => some (R k)) (fun k => (some (R k)).map Range.iterEnd) k ⟨p, false⟩ (p :: l) ∧ (p :: l).Pairwise LexLt ∧
      (∀ q ∈ p :: l, InBox L H q) ∧
      ∀ q, (q = p ∨ LexLt p q) → (∀ j, k < j → j ≤ k + (p :: l).length → InBox (R j).lo (R j).hi q) → q ∈ p :: l := by
  have hstep : ∀ (k : ℕ) (p : Idx n), (⟨p, false⟩ : RangeIter n) ≠ (R k).iterEnd := fun k p h => by
    have := congrArg RangeIter.atEnd h; simp [Range.iterEnd] at this
  induction m with
  | zero =>
    intro k p hp hm
    have := (pre_bounds n le_rfl (inBoxK_of_inBox hp n)).2
    push_cast at hm; omega
  | succ m ih =>
    intro k p hp hm
    rcases increment_cases (R (k + 1)) p with ⟨h1, h2⟩ | ⟨q, c, h1, h2, h3, h4, h5⟩
    · refine ⟨[], .step rfl (hstep k p) rfl ?_, List.pairwise_singleton _ _, by simpa using hp, fun q hq hj => ?_⟩
      · rw [h1]; exact .done rfl
      · rcases hq with rfl | ⟨c, -, hc⟩
        · simp
        · have := (hj (k + 1) (by omega) (by simp) c).2
          have := h2 c
          omega
    · have hlt : LexLt p q := ⟨c, fun j hj => (h4 j hj).symm, by omega⟩
      have hq : InBox L H q := by
        intro i
        rcases lt_trichotomy i c with h | h | h
        · rw [h4 i h]; exact hp i
        · subst h
          have := hp i; have := ((hR (k + 1)).2 i).2
          omega
        · rw [(h5 i h).1]; exact (hR (k + 1)).1 i
      obtain ⟨l, l1, l2, l3, l4⟩ := ih (k + 1) q hq (by have := lexLt_pre hp hq hlt; push_cast at hm; omega)
      refine ⟨q :: l, .step rfl (hstep k p) rfl (by rw [h1]; exact l1), List.pairwise_cons.mpr ⟨fun x hx => ?_, l2⟩, ?_, fun x hx hj => ?_⟩
      · rcases List.mem_cons.mp hx with rfl | hx
        · exact hlt
        · exact lexLt_trans hlt ((List.pairwise_cons.mp l2).1 x hx)
      · intro x hx
        rcases List.mem_cons.mp hx with rfl | hx
        · exact hp
        · exact l3 x hx
      · rcases hx with rfl | ⟨d, hd1, hd2⟩
        · simp
        · refine List.mem_cons_of_mem _ (l4 x ?_ fun j h6 h7 => hj j (by omega) (by simp only [List.length_cons] at h7 ⊢; omega))
          have hx1 := hj (k + 1) (by omega) (by simp)
          -- the place where the iterator is advanced is not before the first difference
          rcases lt_trichotomy c d with h | h | h
          · exact absurd (h5 d h).2 (by have := (hx1 d).2; omega)
          · subst h
            rcases lt_or_eq_of_le (show q c ≤ x c by omega) with h | h
            · exact .inr ⟨c, fun j hj => by rw [h4 j hj, hd1 j hj], h⟩
            · rcases lexLt_trichotomy q x with hh | hh | ⟨e, he1, he2⟩
              · exact .inr hh
              · exact .inl hh.symm
              · rcases lt_trichotomy e c with h6 | h6 | h6
                · rw [h4 e h6, hd1 e h6] at he2; exact absurd he2 (lt_irrefl _)
                · subst h6; omega
                · rw [(h5 e h6).1] at he2; exact absurd (hx1 e).1 (by omega)
          · exact .inr ⟨d, fun j hj => by rw [h4 j (lt_trans hj h), hd1 j hj], by rw [h4 d h]; exact hd2⟩

/-- **C154** Whatever happens to the range in a loop over the range, as long as it is not destroyed and its limits stay bounded: the loop
ends, no position is passed twice, all positions are within the bounds of the limits, and every position that is inside of the range all
the time is passed. -/
theorem C154_ends (R : ℕ → Range n) (L H : Idx n) (hR : ∀ k, Limits L H (R k)) :
    ∃ l, (∀ l', ForLoop (fun k => some (R k)) l' ↔ l' = l) ∧ l.Pairwise LexLt ∧ l.Nodup ∧ (∀ p ∈ l, InBox L H p) ∧
      ∀ p, (∀ k ≤ l.length, InBox (R k).lo (R k).hi p) → p ∈ l := by
  obtain ⟨l, h1, h2, h3, h4⟩ := from_pos hR (vol L H n le_rfl - pre L H (R 0).lo n le_rfl).toNat 0 (R 0).lo (hR 0).1 (Int.self_le_toNat _)
  refine ⟨(R 0).lo :: l, fun l' => ⟨?_, ?_⟩, h2, h2.imp (fun {a b} h (e : a = b) => lexLt_irrefl b (e ▸ h)), h3, fun p hp => h4 p ?_ fun j _ hj => hp j (by omega)⟩
  · rintro ⟨r, hr, hl⟩
    cases hr
    exact unique hl h1
  · rintro rfl; exact ⟨R 0, rfl, h1⟩
  · rcases lexLt_trichotomy (R 0).lo p with h | h | ⟨c, -, hc⟩
    · exact .inr h
    · exact .inl h.symm
    · exact absurd (hp 0 (Nat.zero_le _) c).1 (by omega)

/-- **C154** If the range is not changed at all, both kinds of loop pass exactly the positions of the loops of C01. -/
theorem C154_unchanged (r : Range n) (l : List (Idx n)) :
    (ForLoop (fun _ => some r) l ↔ r.IterLoop r.iterBegin l) ∧ (SavedLoop (fun _ => some r) l ↔ r.IterLoop r.iterBegin l) := by
  have key : ∀ k it, Loop (fun _ => some r) (fun _ => some r.iterEnd) k it l ↔ r.IterLoop it l := by
    induction l with
    | nil =>
      intro k it
      constructor
      · intro h; cases h with | done h => cases h; exact .done rfl
      · intro h; cases h with | done h => exact .done (by rw [h])
    | cons p l ih =>
      intro k it
      constructor
      · intro h
        cases h with
        | step h1 h2 h3 h4 => cases h1; cases h3; exact .step h2 ((ih _ _).mp h4)
      · intro h
        cases h with
        | step h1 h2 => exact .step rfl h1 rfl ((ih _ _).mpr h2)
  constructor
  · constructor
    · rintro ⟨s, hs, h⟩; cases hs; exact (key 0 _).mp h
    · intro h; exact ⟨r, rfl, (key 0 _).mpr h⟩
  · constructor
    · rintro ⟨s, hs, h⟩; cases hs; exact (key 0 _).mp h
    · intro h; exact ⟨r, rfl, (key 0 _).mpr h⟩

/-- **C154** (partial: lower limits unchanged) Comparing with an iterator obtained before the loop makes no difference as long as the lower
limits stay as they are. -/
theorem C154_saved_partial (R : ℕ → Range n) (hlo : ∀ k, (R k).lo = (R 0).lo) (l : List (Idx n)) :
    SavedLoop (fun k => some (R k)) l ↔ ForLoop (fun k => some (R k)) l := by
  have he : (fun k => (some (R k)).map Range.iterEnd) = fun _ => some (R 0).iterEnd := by
    funext k; simp [Range.iterEnd, hlo k]
  unfold SavedLoop ForLoop
  rw [he]
  constructor <;> · rintro ⟨r, hr, h⟩; cases hr; exact ⟨_, rfl, h⟩

private theorem growing_loop {R : ℕ → Range n} (hlo : ∀ k i, (R (k + 1)).lo i ≤ (R k).lo i) (hhi : ∀ k i, (R k).hi i ≤ (R (k + 1)).hi i)
    {k : ℕ} {it : RangeIter n} {l : List (Idx n)} (h : Loop (fun k => some (R k)) (fun k => (some (R k)).map Range.iterEnd) k it l) :
    (it = (R k).iterEnd ∨ (it.atEnd = false ∧ InBox (R k).lo (R k).hi it.pos)) →
    ∀ j p, l[j]? = some p → InBox (R (k + j)).lo (R (k + j)).hi p := by
  induction h with
  | done _ => intro _ j p hj; simp at hj
  | @step k it e r l h1 h2 h3 _ ih =>
    intro hit j p hj
    cases h1; cases h3
    rcases hit with hit | ⟨ha, hin⟩
    · exact absurd hit h2
    · cases j with
      | zero => simp at hj; subst hj; exact hin
      | succ j =>
        rw [List.getElem?_cons_succ] at hj
        have := ih ?_ j p hj
        · rw [show k + 1 + j = k + (j + 1) by omega] at this; exact this
        · obtain ⟨p0, a0⟩ := it
          simp only at ha hin; subst ha
          rcases increment_cases (R (k + 1)) p0 with ⟨e1, -⟩ | ⟨q, c, e1, e2, e3, e4, e5⟩
          · exact .inl e1
          · refine .inr ⟨by rw [e1], fun i => ?_⟩
            rw [e1]
            have hk := hin i
            have hl := hlo k i
            have hh := hhi k i
            rcases lt_trichotomy i c with h | h | h
            · simp only [e4 i h]; omega
            · subst h; simp only; omega
            · have := (e5 i h).2
              simp only [(e5 i h).1]; omega

/-- **C154** (partial: the range only grows) If the range is not empty at the begin and only grows, every position is inside of the range
when it is passed. -/
theorem C154_inside_partial (R : ℕ → Range n) (hne : ∀ i, (R 0).lo i ≤ (R 0).hi i) (hlo : ∀ k i, (R (k + 1)).lo i ≤ (R k).lo i)
    (hhi : ∀ k i, (R k).hi i ≤ (R (k + 1)).hi i) (l : List (Idx n)) (h : ForLoop (fun k => some (R k)) l) (k : ℕ) (p : Idx n)
    (hp : l[k]? = some p) : InBox (R k).lo (R k).hi p := by
  obtain ⟨r, hr, h⟩ := h
  cases hr
  have := growing_loop hlo hhi h (.inr ⟨rfl, fun i => ⟨le_rfl, hne i⟩⟩) k p hp
  rwa [Nat.zero_add] at this

/-- **C154** The range has to exist until the loop has ended. -/
theorem C154_alive (R : ℕ → Option (Range n)) (l : List (Idx n)) (h : ForLoop R l) (k : ℕ) (hk : k ≤ l.length) : (R k).isSome = true := by
  have key : ∀ {k it l}, Loop R (fun k => (R k).map Range.iterEnd) k it l → ∀ j ≤ l.length, (R (k + j)).isSome = true := by
    intro k it l h
    induction h with
    | @done k it h =>
      intro j hj
      obtain rfl : j = 0 := by simpa using hj
      simp only [Option.map_eq_some_iff] at h
      obtain ⟨r, hr, -⟩ := h
      rw [Nat.add_zero, hr]; rfl
    | @step k it e r l h1 h2 h3 _ ih =>
      intro j hj
      cases j with
      | zero =>
        simp only [Option.map_eq_some_iff] at h1
        obtain ⟨r, hr, -⟩ := h1
        rw [Nat.add_zero, hr]; rfl
      | succ j =>
        have := ih j (by simpa using hj)
        rwa [show k + 1 + j = k + (j + 1) by omega] at this
  obtain ⟨r, -, h⟩ := h
  simpa using key h k hk

/-- the range `0..1 × 0..1`, made smaller in the third round of the loop: `0..0 × 0..1` -/
def shrinking : ℕ → Range 2 := fun k => if k ≤ 2 then ⟨![0, 0], ![1, 1]⟩ else ⟨![0, 0], ![0, 1]⟩

/-- **C154 is false when the range gets smaller**: the position (1, 1) is passed when it is outside of the range. -/
theorem C154_violated_outside : ForLoop (fun k => some (shrinking k)) [![0, 0], ![0, 1], ![1, 0], ![1, 1]] ∧
    ¬ InBox (shrinking 3).lo (shrinking 3).hi ![1, 1] := by
  constructor
  · refine ⟨shrinking 0, rfl, ?_⟩
    have e : ∀ k p q, (⟨p, false⟩ : RangeIter 2).increment (shrinking (k + 1)) = ⟨q, false⟩ → ∀ l,
        Loop (fun k => some (shrinking k)) (fun k => (some (shrinking k)).map Range.iterEnd) (k + 1) ⟨q, false⟩ l →
        Loop (fun k => some (shrinking k)) (fun k => (some (shrinking k)).map Range.iterEnd) k ⟨p, false⟩ (p :: l) := by
      intro k p q h l hl
      refine .step rfl (fun h => by have := congrArg RangeIter.atEnd h; simp [Range.iterEnd] at this) rfl ?_
      rw [h]; exact hl
    refine e 0 _ ![0, 1] (by decide +kernel) _ (e 1 _ ![1, 0] (by decide +kernel) _ (e 2 _ ![1, 1] (by decide +kernel) _ ?_))
    refine .step rfl (fun h => by have := congrArg RangeIter.atEnd h; simp [Range.iterEnd] at this) rfl ?_
    have : (⟨![1, 1], false⟩ : RangeIter 2).increment (shrinking 4) = (shrinking 4).iterEnd := by decide +kernel
    rw [this]; exact .done rfl
  · intro h
    have := (h 0).2
    simp [shrinking] at this

/-- the range `0..1`, made longer by one in each round of the loop -/
def growing : ℕ → Range 1 := fun k => ⟨![0], ![(k : ℤ) + 1]⟩

/-- **C154 is false when the range grows again and again**: the loop does not end. -/
theorem C154_violated_growing : ¬ ∃ l, ForLoop (fun k => some (growing k)) l := by
  rintro ⟨l, r, hr, h⟩
  have key : ∀ (R : ℕ → Option (Range 1)) (k : ℕ) (it : RangeIter 1) (l : List (Idx 1)), R = (fun k => some (growing k)) →
      Loop R (fun k => (R k).map Range.iterEnd) k it l → it.atEnd = false → it.pos 0 ≤ k → False := by
    intro R k it l hR h
    subst hR
    induction h with
    | done h => intro ha; cases h; simp [Range.iterEnd] at ha
    | @step k it e r l h1 h2 h3 _ ih =>
      intro ha hp
      obtain ⟨p, a⟩ := it
      simp only at ha hp; subst ha
      cases h3
      rcases increment_cases (growing (k + 1)) p with ⟨-, e2⟩ | ⟨q, c, e1, e2, -⟩
      · have := e2 0
        simp [growing] at this; omega
      · have hc : c = 0 := Subsingleton.elim _ _
        subst hc
        exact ih (by rw [e1]) (by rw [e1]; simp only [e2]; push_cast; omega)
  cases hr
  exact key _ 0 _ l rfl h rfl (by simp [Range.iterBegin, growing])

/-- the range `0..3`, changed to `1..3` in the first round of the loop -/
def raised : ℕ → Range 1 := fun k => if k = 0 then ⟨![0], ![3]⟩ else ⟨![1], ![3]⟩

/-- **C154 is false with an iterator obtained before the loop, if the lower limit is changed**: the loop does not end. -/
theorem C154_violated_saved : ¬ ∃ l, SavedLoop (fun k => some (raised k)) l := by
  rintro ⟨l, r, hr, h⟩
  cases hr
  have inc : ∀ k it, 0 ≤ it.pos 0 → 1 ≤ (RangeIter.increment (raised (k + 1)) it).pos 0 := by
    intro k it h
    have : raised (k + 1) = ⟨![1], ![3]⟩ := by simp [raised]
    rw [this]
    by_cases hc : it.pos 0 + 1 > 3
    · simp [RangeIter.increment, RangeIter.incLoop, hc]
    · simp [RangeIter.increment, RangeIter.incLoop, hc]; omega
  have key : ∀ (stop : ℕ → Option (RangeIter 1)) (k : ℕ) (it : RangeIter 1) (l : List (Idx 1)), stop = (fun _ => some (raised 0).iterEnd) →
      Loop (fun k => some (raised k)) stop k it l → 0 ≤ it.pos 0 → (it.atEnd = false ∨ 1 ≤ it.pos 0) → False := by
    intro stop k it l hs h
    subst hs
    induction h with
    | done h =>
      intro _ ha
      cases h
      simp [Range.iterEnd, raised] at ha
    | @step k it e r l h1 h2 h3 _ ih =>
      intro hp _
      cases h3
      have := inc k it hp
      exact ih (by omega) (.inr this)
  exact key _ 0 _ l rfl h (by simp [Range.iterBegin, raised]) (.inl rfl)

/-- The hypotheses of `C154_ends` are met. -/
example : ∀ k, Limits ![0, 0] ![1, 1] (shrinking k) := by
  intro k
  unfold shrinking
  split <;> constructor <;> intro i <;> fin_cases i <;> decide

/-- The hypotheses of `C154_saved_partial` and `C154_inside_partial` are met by a range that grows once. -/
example : ∃ R : ℕ → Range 1, (∀ k, (R k).lo = (R 0).lo) ∧ (∀ i, (R 0).lo i ≤ (R 0).hi i) ∧ (∀ k i, (R (k + 1)).lo i ≤ (R k).lo i) ∧
    (∀ k i, (R k).hi i ≤ (R (k + 1)).hi i) ∧ (∀ k, Limits ![0] ![5] (R k)) ∧ R 0 ≠ R 1 := by
  refine ⟨fun k => ⟨![0], ![if k = 0 then 3 else 5]⟩, fun _ => rfl, ?_, fun _ _ => le_rfl, ?_, ?_, by decide⟩
  · intro i; fin_cases i; decide
  · intro k i; fin_cases i
    simp; split <;> omega
  · intro k
    constructor <;> intro i <;> fin_cases i <;> simp
    split <;> omega

end Schnek.Props.RangeChange
