import Verif.Model.Machine
import Verif.Lemma.Storage
import Verif.Lemma.Mpi

/-!
# Helper lemmas for machine arithmetic
-/

namespace Schnek.Lemma.Machine

open Schnek Schnek.Spec Schnek.Lemma Function

variable {n : ℕ}

theorem int_some {x : ℤ} (h0 : -2 ^ 31 ≤ x) (h1 : x < 2 ^ 31) : Machine.int x = some x := if_pos ⟨h0, h1⟩

theorem int_none {x : ℤ} (h : x < -2 ^ 31 ∨ 2 ^ 31 ≤ x) : Machine.int x = none := if_neg (by omega)

theorem long_some {x : ℤ} (h0 : -2 ^ 63 ≤ x) (h1 : x < 2 ^ 63) : Machine.long x = some x := if_pos ⟨h0, h1⟩

theorem long_none {x : ℤ} (h : x < -2 ^ 63 ∨ 2 ^ 63 ≤ x) : Machine.long x = none := if_neg (by omega)

theorem int_cases (x : ℤ) : Machine.int x = none ∨ Machine.int x = some x := by
  unfold Machine.int
  by_cases h : -2 ^ 31 ≤ x ∧ x < 2 ^ 31
  · rw [if_pos h]; exact .inr rfl
  · rw [if_neg h]; exact .inl rfl

theorem collect_some {α : Type} {f : Fin n → Option α} {g : Fin n → α} (h : ∀ i, f i = some (g i)) : Machine.collect f = some g := by
  unfold Machine.collect
  rw [dif_pos fun i => by rw [h i]; rfl]
  congr 1
  funext i
  simp [h i]

theorem collect_none {α : Type} {f : Fin n → Option α} {i : Fin n} (h : f i = none) : Machine.collect f = none := by
  unfold Machine.collect
  rw [dif_neg]
  intro hc
  have := hc i
  rw [h] at this
  exact Bool.noConfusion this

theorem dims_some {r : Range n} (h : ∀ i, -2 ^ 31 ≤ r.hi i - r.lo i ∧ r.hi i - r.lo i + 1 < 2 ^ 31) : Machine.dims r = some (Storage.dims r) :=
  collect_some fun i => by
    rw [int_some (h i).1 (by have := h i; omega)]
    show Machine.int (r.hi i - r.lo i + 1) = _
    rw [int_some (by have := h i; omega) (h i).2]
    rfl

/-! ## iterators -/

theorem incLoop_cases (r : Range n) : ∀ (d : ℕ) (h : d ≤ n) (pos : Idx n),
    Machine.incLoop r d h pos = none ∨ Machine.incLoop r d h pos = some (RangeIter.incLoop r d h pos)
  | 0, _, _ => .inr rfl
  | d + 1, h, pos => by
    simp only [Machine.incLoop, RangeIter.incLoop]
    rcases int_cases (pos ⟨d, h⟩ + 1) with e | e
    · rw [e]; exact .inl rfl
    · rw [e]
      show (if _ then _ else _) = _ ∨ (if _ then _ else _) = _
      by_cases hc : update pos ⟨d, h⟩ (pos ⟨d, h⟩ + 1) ⟨d, h⟩ > r.hi ⟨d, h⟩
      · rw [if_pos hc, if_pos hc]
        exact incLoop_cases r d _ _
      · rw [if_neg hc, if_neg hc]
        exact .inr rfl

theorem incLoop_some (r : Range n) : ∀ (d : ℕ) (h : d ≤ n) (pos : Idx n),
    (∀ i : Fin n, i.1 < d → -2 ^ 31 ≤ pos i + 1 ∧ pos i + 1 < 2 ^ 31) →
    Machine.incLoop r d h pos = some (RangeIter.incLoop r d h pos)
  | 0, _, _, _ => rfl
  | d + 1, h, pos, hp => by
    simp only [Machine.incLoop, RangeIter.incLoop]
    have := hp ⟨d, h⟩ (Nat.lt_succ_self d)
    rw [int_some this.1 this.2]
    show (if _ then _ else _) = _
    by_cases hc : update pos ⟨d, h⟩ (pos ⟨d, h⟩ + 1) ⟨d, h⟩ > r.hi ⟨d, h⟩
    · rw [if_pos hc, if_pos hc]
      refine incLoop_some r d _ _ fun i hi => ?_
      rw [update_of_ne (by rintro rfl; simp at hi), update_of_ne (by rintro rfl; simp at hi)]
      exact hp i (by omega)
    · rw [if_neg hc, if_neg hc]

/-- the components of the position after an increment -/
theorem incLoop_pos (r : Range n) : ∀ (d : ℕ) (h : d ≤ n) (pos : Idx n) (i : Fin n),
    (RangeIter.incLoop r d h pos).1 i = pos i ∨ (RangeIter.incLoop r d h pos).1 i = r.lo i ∨
      ((RangeIter.incLoop r d h pos).1 i = pos i + 1 ∧ pos i + 1 ≤ r.hi i)
  | 0, _, _, _ => .inl rfl
  | d + 1, h, pos, i => by
    simp only [RangeIter.incLoop]
    by_cases hc : update pos ⟨d, h⟩ (pos ⟨d, h⟩ + 1) ⟨d, h⟩ > r.hi ⟨d, h⟩
    · rw [if_pos hc]
      have := incLoop_pos r d (Nat.le_of_succ_le h) (update (update pos ⟨d, h⟩ (pos ⟨d, h⟩ + 1)) ⟨d, h⟩ (r.lo ⟨d, h⟩)) i
      by_cases hi : i = ⟨d, h⟩
      · subst hi
        rw [update_self] at this
        rcases this with h1 | h1 | h1
        · exact .inr (.inl h1)
        · exact .inr (.inl h1)
        · exfalso
          have hk : ∀ (k : ℕ) (hk : k ≤ n) (q : Idx n) (j : Fin n), k ≤ j.1 → (RangeIter.incLoop r k hk q).1 j = q j := by
            intro k
            induction k with
            | zero => intro _ q j _; rfl
            | succ k ih =>
              intro hk q j hj
              simp only [RangeIter.incLoop]
              have hne : j ≠ ⟨k, hk⟩ := by rintro rfl; simp at hj
              by_cases hc : update q ⟨k, hk⟩ (q ⟨k, hk⟩ + 1) ⟨k, hk⟩ > r.hi ⟨k, hk⟩
              · rw [if_pos hc, ih _ _ _ (by omega), update_of_ne hne, update_of_ne hne]
              · rw [if_neg hc]
                exact update_of_ne hne _ _
          rw [hk d _ _ _ le_rfl, update_self] at h1
          omega
      · rwa [update_of_ne hi, update_of_ne hi] at this
    · rw [if_neg hc]
      by_cases hi : i = ⟨d, h⟩
      · subst hi
        rw [update_self] at hc
        right; right
        exact ⟨update_self _ _ _, by omega⟩
      · left
        exact update_of_ne hi _ _

/-- `r` is a range the iterators can handle -/
def Fits (r : Range n) : Prop := ∀ i, -2 ^ 31 ≤ r.lo i ∧ r.lo i < 2 ^ 31 - 1 ∧ r.hi i < 2 ^ 31 - 1

/-- no component is the largest number -/
def PosOk (p : Idx n) : Prop := ∀ i, -2 ^ 31 ≤ p i ∧ p i < 2 ^ 31 - 1

theorem increment_some {r : Range n} {it : RangeIter n} (hp : PosOk it.pos) : Machine.increment r it = some (it.increment r) := by
  unfold Machine.increment
  rw [incLoop_some r n le_rfl it.pos fun i _ => by have := hp i; omega]
  rfl

theorem increment_posOk {r : Range n} (hr : Fits r) {it : RangeIter n} (hp : PosOk it.pos) : PosOk (it.increment r).pos := fun i => by
  have h1 := hr i
  have h2 := hp i
  show -2 ^ 31 ≤ (RangeIter.incLoop r n le_rfl it.pos).1 i ∧ (RangeIter.incLoop r n le_rfl it.pos).1 i < 2 ^ 31 - 1
  rcases incLoop_pos r n le_rfl it.pos i with h | h | h <;> omega

theorem iterLoop_iff {r : Range n} (hr : Fits r) {it : RangeIter n} (hp : PosOk it.pos) (out : Option (List (Idx n))) :
    Machine.IterLoop r it out ↔ ∃ l, out = some l ∧ r.IterLoop it l := by
  constructor
  · intro h
    induction h with
    | done he => exact ⟨[], rfl, .done he⟩
    | overflow _ he => rw [increment_some hp] at he; cases he
    | step hne he _ ih =>
      rw [increment_some hp] at he
      cases he
      obtain ⟨l, rfl, hl⟩ := ih (increment_posOk hr hp)
      exact ⟨_, rfl, .step hne hl⟩
  · rintro ⟨l, rfl, h⟩
    induction h with
    | done he => exact .done he
    | step hne _ ih => exact .step hne (increment_some hp) (ih (increment_posOk hr hp))

theorem begin_ok {r : Range n} (hr : Fits r) : PosOk r.iterBegin.pos := fun i => ⟨(hr i).1, (hr i).2.1⟩

theorem iterLoop_begin {r : Range n} (hr : Fits r) (out : Option (List (Idx n))) :
    Machine.IterLoop r r.iterBegin out ↔ ∃ l, out = some l ∧ r.IterLoop r.iterBegin l := iterLoop_iff hr (begin_ok hr) out

theorem incLoop_end (r : Range n) : ∀ (d : ℕ) (h : d ≤ n) (pos : Idx n), (RangeIter.incLoop r d h pos).2 = true →
    ∀ i : Fin n, i.1 < d → r.hi i < pos i + 1
  | 0, _, _, _ => fun i hi => absurd hi (by omega)
  | d + 1, h, pos, he => fun i hi => by
    simp only [RangeIter.incLoop] at he
    by_cases hc : update pos ⟨d, h⟩ (pos ⟨d, h⟩ + 1) ⟨d, h⟩ > r.hi ⟨d, h⟩
    · rw [if_pos hc] at he
      by_cases hd : i.1 = d
      · have : i = ⟨d, h⟩ := Fin.ext hd
        subst this
        rw [update_self] at hc
        exact hc
      · have := incLoop_end r d _ _ he i (by omega)
        rwa [update_of_ne (by rintro rfl; exact hd rfl), update_of_ne (by rintro rfl; exact hd rfl)] at this
    · rw [if_neg hc] at he
      cases he

theorem incLoop_overflow (r : Range n) : ∀ (d : ℕ) (h : d ≤ n) (pos : Idx n), (RangeIter.incLoop r d h pos).2 = true →
    (∃ i : Fin n, i.1 < d ∧ r.hi i = 2 ^ 31 - 1) → Machine.incLoop r d h pos = none
  | 0, _, _, _, ⟨i, hi, _⟩ => absurd hi (by omega)
  | d + 1, h, pos, he, ⟨i, hi, hmax⟩ => by
    have hend := incLoop_end r (d + 1) h pos he
    simp only [RangeIter.incLoop] at he
    simp only [Machine.incLoop]
    by_cases hd : i.1 = d
    · have : i = ⟨d, h⟩ := Fin.ext hd
      subst this
      rw [int_none (by have := hend ⟨d, h⟩ hi; omega)]
      rfl
    · rcases int_cases (pos ⟨d, h⟩ + 1) with e | e
      · rw [e]; rfl
      · rw [e]
        show (if _ then _ else _) = none
        have := hend ⟨d, h⟩ (Nat.lt_succ_self d)
        have hc : update pos ⟨d, h⟩ (pos ⟨d, h⟩ + 1) ⟨d, h⟩ > r.hi ⟨d, h⟩ := by rw [update_self]; omega
        rw [if_pos hc] at he ⊢
        exact incLoop_overflow r d _ _ he ⟨i, by omega, hmax⟩

theorem iterLoop_overflow {r : Range n} (hmax : ∃ i, r.hi i = 2 ^ 31 - 1) {it : RangeIter n} {l : List (Idx n)} (hl : r.IterLoop it l)
    (ha : it.atEnd = false) (out : Option (List (Idx n))) : Machine.IterLoop r it out ↔ out = none := by
  induction hl generalizing out with
  | done he => rw [he] at ha; cases ha
  | @step it l hne _ ih =>
    have hinc : Machine.increment r it = none ∨ Machine.increment r it = some (it.increment r) := by
      unfold Machine.increment
      rcases incLoop_cases r n le_rfl it.pos with e | e <;> rw [e]
      · exact .inl rfl
      · exact .inr rfl
    rcases hinc with e | e
    · constructor
      · intro h
        cases h with
        | done he => exact absurd he hne
        | overflow => rfl
        | step _ he _ => rw [e] at he; cases he
      · rintro rfl
        exact .overflow hne e
    · cases hb : (it.increment r).atEnd with
      | true =>
        exfalso
        have hb' : (RangeIter.incLoop r n le_rfl it.pos).2 = true := by
          have : (it.atEnd || (RangeIter.incLoop r n le_rfl it.pos).2) = true := hb
          rwa [ha, Bool.false_or] at this
        obtain ⟨i, hi⟩ := hmax
        have := incLoop_overflow r n le_rfl it.pos hb' ⟨i, i.2, hi⟩
        unfold Machine.increment at e
        rw [this] at e
        cases e
      | false =>
        constructor
        · intro h
          cases h with
          | done he => exact absurd he hne
          | overflow => rfl
          | step _ he ho =>
            rw [e] at he
            cases he
            rw [(ih hb _).mp ho]
            rfl
        · rintro rfl
          exact .step hne e ((ih hb none).mpr rfl)

/-! ## loops -/

variable {σ : Type}

theorem go_some (body : ℤ → σ → Option σ) (body' : ℤ → σ → σ) (hb : ∀ x s, body x s = some (body' x s)) :
    ∀ (k : ℕ) (x : ℤ) (s : σ), -2 ^ 31 ≤ x + 1 → (k = 0 ∨ x + k < 2 ^ 31) → Machine.loopLE.go body k x s = some (Schnek.loopLE.go body' k x s)
  | 0, _, _, _, _ => rfl
  | k + 1, x, s, h0, h1 => by
    simp only [Machine.loopLE.go, Schnek.loopLE.go]
    rw [hb, Option.bind_some, int_some h0 (by omega), Option.bind_some]
    exact go_some body body' hb k (x + 1) _ (by omega) (by omega)

theorem go_none_last (body : ℤ → σ → Option σ) : ∀ (k : ℕ) (x : ℤ) (s : σ), 0 < k → x + k = 2 ^ 31 → Machine.loopLE.go body k x s = none
  | 0, _, _, h, _ => absurd h (by omega)
  | k + 1, x, s, _, h => by
    simp only [Machine.loopLE.go]
    cases body x s with
    | none => rfl
    | some s' =>
      rw [Option.bind_some]
      rcases int_cases (x + 1) with e | e
      · rw [e]; rfl
      · rw [e, Option.bind_some]
        have : 0 < k := by
          by_contra hc
          rw [int_none (by omega)] at e
          cases e
        exact go_none_last body k (x + 1) s' this (by omega)

theorem go_none_body (body : ℤ → σ → Option σ) (hb : ∀ x s, body x s = none) (k : ℕ) (x : ℤ) (s : σ) (h : 0 < k) :
    Machine.loopLE.go body k x s = none := by
  obtain ⟨k, rfl⟩ : ∃ m, k = m + 1 := ⟨k - 1, by omega⟩
  simp only [Machine.loopLE.go]
  rw [hb]
  rfl

theorem forEachCImpl_some {r : Range n} (hr : ∀ i, -2 ^ 31 ≤ r.lo i ∧ r.hi i < 2 ^ 31 - 1) (f : Idx n → σ → σ) :
    ∀ (dim : ℕ) (h : dim ≤ n) (st : Idx n × σ), Machine.forEachCImpl r f dim h st = some (r.forEachCImpl f dim h st)
  | 0, _, _ => rfl
  | dim + 1, h, st => by
    simp only [Machine.forEachCImpl, Range.forEachCImpl, Machine.loopLE, Schnek.loopLE]
    have := hr ⟨n - (dim + 1), by omega⟩
    exact go_some _ _ (fun x s => forEachCImpl_some hr f dim _ _) _ _ _ (by omega) (by omega)

theorem forEachFImpl_some {r : Range n} (hr : ∀ i, -2 ^ 31 ≤ r.lo i ∧ r.hi i < 2 ^ 31 - 1) (f : Idx n → σ → σ) :
    ∀ (rank : ℕ) (h : rank ≤ n) (st : Idx n × σ), Machine.forEachFImpl r f rank h st = some (r.forEachFImpl f rank h st)
  | 0, _, _ => rfl
  | rank + 1, h, st => by
    simp only [Machine.forEachFImpl, Range.forEachFImpl, Machine.loopLE, Schnek.loopLE]
    have := hr ⟨rank, h⟩
    exact go_some _ _ (fun x s => forEachFImpl_some hr f rank _ _) _ _ _ (by omega) (by omega)

theorem forEachCImpl_none {r : Range n} (hne : ∀ i, r.lo i ≤ r.hi i) (f : Idx n → σ → σ) :
    ∀ (dim : ℕ) (h : dim ≤ n) (st : Idx n × σ), (∃ i : Fin n, n - dim ≤ i.1 ∧ r.hi i = 2 ^ 31 - 1) →
      Machine.forEachCImpl r f dim h st = none
  | 0, _, _, ⟨i, hi, _⟩ => absurd i.2 (by omega)
  | dim + 1, h, st, ⟨i, hi, hmax⟩ => by
    simp only [Machine.forEachCImpl, Machine.loopLE]
    have hn := hne ⟨n - (dim + 1), by omega⟩
    by_cases he : i.1 = n - (dim + 1)
    · have : (⟨n - (dim + 1), by omega⟩ : Fin n) = i := Fin.ext he.symm
      rw [this] at hn ⊢
      exact go_none_last _ _ _ _ (by omega) (by omega)
    · exact go_none_body _ (fun x s => forEachCImpl_none hne f dim _ _ ⟨i, by omega, hmax⟩) _ _ _ (by omega)

theorem forEachFImpl_none {r : Range n} (hne : ∀ i, r.lo i ≤ r.hi i) (f : Idx n → σ → σ) :
    ∀ (rank : ℕ) (h : rank ≤ n) (st : Idx n × σ), (∃ i : Fin n, i.1 < rank ∧ r.hi i = 2 ^ 31 - 1) →
      Machine.forEachFImpl r f rank h st = none
  | 0, _, _, ⟨i, hi, _⟩ => absurd hi (by omega)
  | rank + 1, h, st, ⟨i, hi, hmax⟩ => by
    simp only [Machine.forEachFImpl, Machine.loopLE]
    have hn := hne ⟨rank, h⟩
    by_cases he : i.1 = rank
    · have : i = ⟨rank, h⟩ := Fin.ext he
      subst this
      exact go_none_last _ _ _ _ (by omega) (by omega)
    · exact go_none_body _ (fun x s => forEachFImpl_none hne f rank _ _ ⟨i, by omega, hmax⟩) _ _ _ (by omega)

/-! ## storage -/

theorem fastC_foldlM (r : Range (n + 1)) : ∀ (k : ℕ) (hk : k ≤ n),
    (∀ j (hj : j < k), -2 ^ 63 ≤ pre r.lo r.hi 0 (j + 1) (by omega) * extent r.lo r.hi ⟨j + 1, by omega⟩ ∧
      pre r.lo r.hi 0 (j + 1) (by omega) * extent r.lo r.hi ⟨j + 1, by omega⟩ < 2 ^ 63 ∧
      -2 ^ 63 ≤ pre r.lo r.hi 0 (j + 2) (by omega) ∧ pre r.lo r.hi 0 (j + 2) (by omega) < 2 ^ 63) →
    (List.finRange k).foldlM (fun p i => (Machine.long (p * Storage.dims r (Fin.castLE hk i).succ)).bind fun q =>
      Machine.long (q - r.lo (Fin.castLE hk i).succ)) (-(r.lo 0)) = some (pre r.lo r.hi 0 (k + 1) (by omega))
  | 0, _, _ => by
    simp only [List.finRange_zero, List.foldlM_nil, pre]
    show some (-(r.lo 0)) = some _
    congr 1
    have : (⟨0, by omega⟩ : Fin (n + 1)) = 0 := rfl
    rw [this]
    simp
  | k + 1, hk, h => by
    rw [List.finRange_succ_last, List.foldlM_append, List.foldlM_map]
    have ih := fastC_foldlM r k (by omega) fun j hj => h j (by omega)
    have h0 : ∀ i : Fin k, Fin.castLE hk i.castSucc = Fin.castLE (Nat.le_of_succ_le hk) i := fun i => rfl
    simp only [h0]
    rw [ih]
    have hl : (Fin.castLE hk (Fin.last k)).succ = (⟨k + 1, by omega⟩ : Fin (n + 1)) := rfl
    have hb := h k (Nat.lt_succ_self k)
    have he : Storage.dims r ⟨k + 1, by omega⟩ = extent r.lo r.hi ⟨k + 1, by omega⟩ := rfl
    simp only [Option.bind_eq_bind, Option.bind_some, List.foldlM_cons, List.foldlM_nil, hl, he]
    rw [long_some hb.1 hb.2.1]
    have hp : pre r.lo r.hi 0 (k + 2) (by omega) =
        pre r.lo r.hi 0 (k + 1) (by omega) * extent r.lo r.hi ⟨k + 1, by omega⟩ - r.lo ⟨k + 1, by omega⟩ := by
      rw [pre]
      show _ + (0 - _) = _
      omega
    rw [Option.bind_some, ← hp, long_some hb.2.2.1 hb.2.2.2]
    rfl

theorem posC_zero (d : Idx (n + 1)) : Storage.posC d 0 = 0 := by
  unfold Storage.posC
  have : ∀ l : List (Fin n), l.foldl (fun (pos : Word) i => (((0 : Idx (n + 1)) i.succ : ℤ) : Word) + (d i.succ : Word) * pos) 0 = 0 := by
    intro l
    induction l with
    | nil => rfl
    | cons a l ih => rw [List.foldl_cons]; simpa using ih
  simpa using this (List.finRange n)

theorem slotC_some (r : Range (n + 1)) (hd : ∀ i, -2 ^ 31 ≤ r.hi i - r.lo i ∧ r.hi i - r.lo i + 1 < 2 ^ 31)
    (h0 : -2 ^ 31 < r.lo 0 ∧ r.lo 0 ≤ 2 ^ 31)
    (h : ∀ j (hj : j < n), -2 ^ 63 ≤ pre r.lo r.hi 0 (j + 1) (by omega) * extent r.lo r.hi ⟨j + 1, by omega⟩ ∧
      pre r.lo r.hi 0 (j + 1) (by omega) * extent r.lo r.hi ⟨j + 1, by omega⟩ < 2 ^ 63 ∧
      -2 ^ 63 ≤ pre r.lo r.hi 0 (j + 2) (by omega) ∧ pre r.lo r.hi 0 (j + 2) (by omega) < 2 ^ 63) (p : Idx (n + 1)) :
    Machine.slot .c r p = some (Storage.slot .c r p) := by
  unfold Machine.slot
  rw [dims_some hd, Option.bind_some]
  show (Machine.fastC _ _).map _ = _
  unfold Machine.fastC
  rw [int_some (by omega) (by omega), Option.bind_some]
  have := fastC_foldlM r n le_rfl h
  simp only [Fin.castLE_rfl, id] at this
  rw [this]
  show some _ = some _
  congr 1
  show _ = (Storage.fastC _ _ + _).val
  congr 2
  have := posC_fastC r 0
  rw [posC_zero, add_zero] at this
  rw [this]

theorem slotF_some (r : Range (n + 1)) (hd : ∀ i, -2 ^ 31 ≤ r.hi i - r.lo i ∧ r.hi i - r.lo i + 1 < 2 ^ 31)
    (h0 : -2 ^ 31 < r.lo (Fin.last n) ∧ r.lo (Fin.last n) ≤ 2 ^ 31) (p : Idx (n + 1)) :
    Machine.slot .fortran r p = some (Storage.slot .fortran r p) := by
  unfold Machine.slot
  rw [dims_some hd, Option.bind_some]
  show (Machine.fastF _ _).map _ = _
  unfold Machine.fastF
  rw [int_some (by omega) (by omega)]
  show some _ = some _
  congr 1
  simp only [Storage.slot, Storage.fastF]
  push_cast
  rfl

/-- the partial offsets are not larger than rank times number of elements times index -/
theorem abs_pre (r : Range n) (hne : ∀ i, r.lo i ≤ r.hi i) (M : ℤ) (hM : 0 ≤ M) (hlo : ∀ i, |r.lo i| ≤ M) :
    ∀ (k : ℕ) (hk : k ≤ n), |pre r.lo r.hi 0 k hk| ≤ M * (k * vol r.lo r.hi k hk)
  | 0, _ => by simp [pre]
  | k + 1, hk => by
    have ih := abs_pre r hne M hM hlo k (Nat.le_of_succ_le hk)
    have hE : 1 ≤ extent r.lo r.hi ⟨k, hk⟩ := by have := hne ⟨k, hk⟩; unfold extent; omega
    have hV : 0 < vol r.lo r.hi k (Nat.le_of_succ_le hk) := vol_pos (p := r.lo) k _ fun i _ => ⟨le_rfl, hne i⟩
    simp only [pre, vol]
    set a := pre r.lo r.hi 0 k (Nat.le_of_succ_le hk)
    set V := vol r.lo r.hi k (Nat.le_of_succ_le hk)
    set E := extent r.lo r.hi ⟨k, hk⟩
    have h1 : |a * E| ≤ M * (k * V) * E := by
      rw [abs_mul, abs_of_pos (by omega : 0 < E)]
      exact mul_le_mul_of_nonneg_right ih (by omega)
    have h2 : |(0 : Idx n) ⟨k, hk⟩ - r.lo ⟨k, hk⟩| ≤ M := by
      show |0 - _| ≤ M
      rw [zero_sub, abs_neg]
      exact hlo _
    have h3 : M ≤ M * (V * E) := by
      have : 1 ≤ V * E := by nlinarith
      nlinarith
    calc |a * E + ((0 : Idx n) ⟨k, hk⟩ - r.lo ⟨k, hk⟩)| ≤ |a * E| + |(0 : Idx n) ⟨k, hk⟩ - r.lo ⟨k, hk⟩| := abs_add_le _ _
      _ ≤ M * (k * V) * E + M * (V * E) := by linarith
      _ = M * ((k + 1 : ℕ) * (V * E)) := by push_cast; ring

theorem vol_le (r : Range n) (hne : ∀ i, r.lo i ≤ r.hi i) : ∀ (k m : ℕ) (hk : k ≤ m) (hm : m ≤ n),
    vol r.lo r.hi k (hk.trans hm) ≤ vol r.lo r.hi m hm
  | k, 0, hk, hm => by
    have : k = 0 := by omega
    subst this; rfl
  | k, m + 1, hk, hm => by
    by_cases h : k = m + 1
    · subst h; rfl
    · have := vol_le r hne k m (by omega) (by omega)
      rw [vol]
      have hE : 1 ≤ extent r.lo r.hi ⟨m, hm⟩ := by have := hne ⟨m, hm⟩; unfold extent; omega
      have hV : 0 < vol r.lo r.hi m (Nat.le_of_succ_le hm) := vol_pos (p := r.lo) m _ fun i _ => ⟨le_rfl, hne i⟩
      nlinarith

theorem toInt_small {x : Word} {v : ℤ} (h : (x.val : ℤ) = v) (h0 : 0 ≤ v) (h1 : v < 2 ^ 31) : Machine.toInt x = v := by
  unfold Machine.toInt
  rw [h, Int.bmod_eq_of_le_mul_two (by norm_num; omega) (by norm_num; omega)]

theorem toInt_zero {x : Word} (h : (x.val : ℤ) = 4294967296) : Machine.toInt x = 0 := by
  unfold Machine.toInt
  rw [h]
  norm_num [Int.bmod]

/-! ## ghost cell exchange -/

theorem parLoop_iff {r₁ r₂ : Range n} (h₁ : Fits r₁) (h₂ : Fits r₂) (body : Idx n → Idx n → σ → Option σ) {it₁ it₂ : RangeIter n}
    (p₁ : PosOk it₁.pos) (p₂ : PosOk it₂.pos) (s : σ) (out : Option σ) :
    Machine.ParLoop r₁ r₂ body it₁ it₂ s out ↔ ParLoop r₁ r₂ body it₁ it₂ s out := by
  constructor
  · intro h
    induction h with
    | done he => exact .done he
    | fault hne hb => exact .fault hne hb
    | overflow _ _ he =>
      rw [increment_some p₁, increment_some p₂] at he
      rcases he with he | he <;> cases he
    | step hne hb e₁ e₂ _ ih =>
      rw [increment_some p₁] at e₁
      rw [increment_some p₂] at e₂
      cases e₁
      cases e₂
      exact .step hne hb (ih (increment_posOk h₁ p₁) (increment_posOk h₂ p₂))
  · intro h
    induction h with
    | done he => exact .done he
    | fault hne hb => exact .fault hne hb
    | step hne hb _ ih =>
      exact .step hne hb (increment_some p₁) (increment_some p₂) (ih (increment_posOk h₁ p₁) (increment_posOk h₂ p₂))

/-- local domain in which there is no overflow -/
structure Safe (B : Boundary n) : Prop where
  delta : 1 ≤ B.delta
  wide : ∀ i, B.size.lo i + 3 * B.delta ≤ B.size.hi i + 1
  lo : ∀ i, -2 ^ 31 < B.size.lo i
  hi : ∀ i, B.size.hi i < 2 ^ 31 - 1

theorem ghost_some {B : Boundary n} (h : Safe B) (d : Fin n) (b : Bound) : Machine.ghostDomain B d b = some (B.ghostDomain d b) := by
  have h1 := h.delta
  have h2 := h.wide d
  have h3 := h.lo d
  have h4 := h.hi d
  cases b with
  | min =>
    simp only [Machine.ghostDomain]
    rw [int_some (by omega) (by omega), Option.bind_some, int_some (by omega) (by omega)]
    rfl
  | max =>
    simp only [Machine.ghostDomain]
    rw [int_some (by omega) (by omega), Option.bind_some, int_some (by omega) (by omega)]
    rfl

theorem source_some {B : Boundary n} (h : Safe B) (d : Fin n) (b : Bound) :
    Machine.ghostSourceDomain B d b = some (B.ghostSourceDomain d b) := by
  have h1 := h.delta
  have h2 := h.wide d
  have h3 := h.lo d
  have h4 := h.hi d
  cases b with
  | min =>
    simp only [Machine.ghostSourceDomain, Boundary.ghostSourceDomain, update_self]
    rw [int_some (by omega) (by omega), Option.bind_some, int_some (by omega) (by omega), Option.bind_some, int_some (by omega) (by omega)]
    rfl
  | max =>
    simp only [Machine.ghostSourceDomain, Boundary.ghostSourceDomain, update_self]
    rw [int_some (by omega) (by omega), Option.bind_some, int_some (by omega) (by omega), Option.bind_some, int_some (by omega) (by omega)]
    rfl

theorem boundary_some {B : Boundary n} (h : Safe B) (d : Fin n) (b : Bound) (st : Bool) :
    Machine.boundaryDomain B d b st = some (B.boundaryDomain d b st) := by
  have h1 := h.delta
  have h2 := h.wide d
  have h3 := h.lo d
  have h4 := h.hi d
  cases b with
  | min =>
    simp only [Machine.boundaryDomain, Boundary.boundaryDomain]
    rw [int_some (by omega) (by omega), Option.bind_some, int_some (by omega) (by omega), Option.bind_some]
    rw [int_some (by cases st <;> simp <;> omega) (by cases st <;> simp <;> omega)]
    rfl
  | max =>
    simp only [Machine.boundaryDomain, Boundary.boundaryDomain]
    rw [int_some (by omega) (by omega), Option.bind_some, int_some (by omega) (by omega)]
    rfl

theorem inner_some {B : Boundary n} (h : Safe B) : Machine.innerDomain B = some B.innerDomain := by
  unfold Machine.innerDomain
  rw [collect_some (g := fun d => B.size.lo d + B.delta) fun d => ?_, Option.bind_some,
    collect_some (g := fun d => B.size.hi d - B.delta) fun d => ?_]
  · rfl
  all_goals
    have h1 := h.delta
    have h2 := h.wide d
    have h3 := h.lo d
    have h4 := h.hi d
    exact int_some (by omega) (by omega)

theorem ghost_fits {B : Boundary n} (h : Safe B) (d : Fin n) (b : Bound) : Fits (B.ghostDomain d b) := fun i => by
  have h1 := h.delta
  have h2 := h.wide i
  have h3 := h.lo i
  have h4 := h.hi i
  by_cases hi : i = d
  · subst hi
    cases b <;> simp only [Boundary.ghostDomain, update_self] <;> omega
  · cases b <;> simp only [Boundary.ghostDomain, update_of_ne hi] <;> omega

theorem source_fits {B : Boundary n} (h : Safe B) (d : Fin n) (b : Bound) : Fits (B.ghostSourceDomain d b) := fun i => by
  have h1 := h.delta
  have h2 := h.wide i
  have h3 := h.lo i
  have h4 := h.hi i
  by_cases hi : i = d
  · subst hi
    cases b <;> simp only [Boundary.ghostSourceDomain, update_self] <;> omega
  · cases b <;> simp only [Boundary.ghostSourceDomain, update_of_ne hi] <;> omega

variable {T : Type}

theorem serialDim_iff {B : Boundary n} (h : Safe B) (cell : Idx n → Idx n → GridMap n T → Option (GridMap n T)) (d : Fin n) (g : GridMap n T)
    (out : Option (GridMap n T)) : Machine.SerialDim cell B d g out ↔
      ∃ mid, ParLoop (B.ghostDomain d .min) (B.ghostSourceDomain d .max) (fun a b => cell a b) (B.ghostDomain d .min).iterBegin
          (B.ghostSourceDomain d .max).iterBegin g mid ∧
        match mid with
        | none => out = none
        | some g₁ => ParLoop (B.ghostSourceDomain d .min) (B.ghostDomain d .max) (fun a b => cell b a) (B.ghostSourceDomain d .min).iterBegin
            (B.ghostDomain d .max).iterBegin g₁ out := by
  unfold Machine.SerialDim
  rw [ghost_some h, ghost_some h, source_some h, source_some h]
  refine exists_congr fun mid => and_congr ?_ ?_
  · exact parLoop_iff (ghost_fits h d _) (source_fits h d _) _ (begin_ok (ghost_fits h d _)) (begin_ok (source_fits h d _)) _ _
  · cases mid with
    | none => exact Iff.rfl
    | some g₁ => exact parLoop_iff (source_fits h d _) (ghost_fits h d _) _ (begin_ok (source_fits h d _)) (begin_ok (ghost_fits h d _)) _ _

theorem overDims_congr {step step' : Fin n → GridMap n T → Option (GridMap n T) → Prop} (h : ∀ d g out, step d g out ↔ step' d g out) :
    ∀ (ds : List (Fin n)) (g : GridMap n T) (out : Option (GridMap n T)), Serial.OverDims step ds g out ↔ Serial.OverDims step' ds g out
  | [], _, _ => Iff.rfl
  | d :: ds, g, out => by
    simp only [Serial.OverDims]
    refine exists_congr fun mid => and_congr (h d g mid) ?_
    cases mid with
    | none => exact Iff.rfl
    | some g₁ => exact overDims_congr h ds g₁ out

theorem exchange_iff {B : Boundary n} (h : Safe B) (g : GridMap n T) (out : Option (GridMap n T)) :
    Machine.SerialExchange B g out ↔ Serial.Exchange B g out := overDims_congr (fun d g out => serialDim_iff h _ d g out) _ g out

theorem accumulate_iff [Add T] {B : Boundary n} (h : Safe B) (g : GridMap n T) (out : Option (GridMap n T)) :
    Machine.SerialAccumulate B g out ↔ Serial.Accumulate B g out := overDims_congr (fun d g out => serialDim_iff h _ d g out) _ g out

/-! ## processes -/

theorem gather_iff {r : Range n} (hr : Fits r) (g : GridMap n T) (size : ℤ) (buf : List T) :
    Machine.Gather r g size buf ↔ Mpi.Gather r g size buf := by
  refine exists_congr fun l => and_congr ?_ Iff.rfl
  rw [iterLoop_begin hr]
  exact ⟨fun ⟨_, e, h⟩ => by cases e; exact h, fun h => ⟨l, rfl, h⟩⟩

theorem scatter_iff {r : Range n} (hr : Fits r) (buf : List T) (g g' : GridMap n T) :
    Machine.Scatter r buf g g' ↔ Mpi.Scatter r buf g g' := by
  refine exists_congr fun l => and_congr ?_ Iff.rfl
  rw [iterLoop_begin hr]
  exact ⟨fun ⟨_, e, h⟩ => by cases e; exact h, fun h => ⟨l, rfl, h⟩⟩

theorem half_iff {S : Mpi.Setup n} (hB : ∀ c, Machine.mpiBounds S c = some (Mpi.bounds S c)) (dim : Fin n)
    (src dst : Boundary n → Option (Range n)) (src' dst' : Boundary n → Range n)
    (hs : ∀ c, src (Mpi.bounds S c) = some (src' (Mpi.bounds S c))) (hd : ∀ c, dst (Mpi.bounds S c) = some (dst' (Mpi.bounds S c)))
    (fs : ∀ c, Fits (src' (Mpi.bounds S c))) (fd : ∀ c, Fits (dst' (Mpi.bounds S c)))
    (dest source : Mpi.Coord S → Mpi.Coord S) (W W' : Mpi.World S T) :
    Machine.Half S dim src dst dest source W W' ↔
      Mpi.Half S dim (fun c => src' (Mpi.bounds S c)) (fun c => dst' (Mpi.bounds S c)) dest source W W' := by
  constructor
  · rintro ⟨bufs, size, B, s, d, h0, h1, h2, h3, h4⟩
    have e : ∀ c, B c = Mpi.bounds S c ∧ s c = src' (Mpi.bounds S c) ∧ d c = dst' (Mpi.bounds S c) := fun c => by
      obtain ⟨a1, a2, a3⟩ := h0 c
      rw [hB c] at a1
      have b1 := Option.some.inj a1
      rw [← b1, hs c] at a2
      rw [← b1, hd c] at a3
      exact ⟨b1.symm, (Option.some.inj a2).symm, (Option.some.inj a3).symm⟩
    refine ⟨bufs, size, fun c => by rw [← (e c).1]; exact h1 c, fun c => ?_, h3, fun c => ?_⟩
    · rw [← gather_iff (fs c), ← (e c).2.1]; exact h2 c
    · rw [← scatter_iff (fd c), ← (e c).2.2]; exact h4 c
  · rintro ⟨bufs, size, h1, h2, h3, h4⟩
    exact ⟨bufs, size, Mpi.bounds S, fun c => src' (Mpi.bounds S c), fun c => dst' (Mpi.bounds S c), fun c => ⟨hB c, hs c, hd c⟩, h1,
      fun c => (gather_iff (fs c) _ _ _).mpr (h2 c), h3, fun c => (scatter_iff (fd c) _ _ _).mpr (h4 c)⟩

theorem mpiOverDims_congr {S : Mpi.Setup n} {step step' : Fin n → Mpi.World S T → Mpi.World S T → Prop}
    (h : ∀ d W W', step d W W' ↔ step' d W W') :
    ∀ (ds : List (Fin n)) (W W' : Mpi.World S T), Mpi.OverDims step ds W W' ↔ Mpi.OverDims step' ds W W'
  | [], _, _ => Iff.rfl
  | d :: ds, W, W' => by
    simp only [Mpi.OverDims]
    exact exists_congr fun W₁ => and_congr (h d W W₁) (mpiOverDims_congr h ds W₁ W')

theorem mpiExchange_iff {S : Mpi.Setup n} (hB : ∀ c, Machine.mpiBounds S c = some (Mpi.bounds S c)) (hS : ∀ c, Safe (Mpi.bounds S c))
    (W W' : Mpi.World S T) : Machine.MpiExchange S W W' ↔ Mpi.Exchange S W W' := by
  refine mpiOverDims_congr (fun d W W' => ?_) _ W W'
  refine exists_congr fun W₁ => and_congr ?_ ?_
  · exact half_iff hB d _ _ (fun B => B.ghostSourceDomain d .max) (fun B => B.ghostDomain d .min) (fun c => source_some (hS c) d _)
      (fun c => ghost_some (hS c) d _) (fun c => source_fits (hS c) d _) (fun c => ghost_fits (hS c) d _) _ _ _ _
  · exact half_iff hB d _ _ (fun B => B.ghostSourceDomain d .min) (fun B => B.ghostDomain d .max) (fun c => source_some (hS c) d _)
      (fun c => ghost_some (hS c) d _) (fun c => source_fits (hS c) d _) (fun c => ghost_fits (hS c) d _) _ _ _ _

theorem addScatter_iff [Add T] {r : Range n} (hr : Fits r) (buf : List T) (g g' : GridMap n T) (back : List T) :
    Machine.AddScatter r buf g g' back ↔ Mpi.AddScatter r buf g g' back := by
  refine exists_congr fun l => and_congr ?_ Iff.rfl
  rw [iterLoop_begin hr]
  exact ⟨fun ⟨_, e, h⟩ => by cases e; exact h, fun h => ⟨l, rfl, h⟩⟩

theorem accHalf_iff [Add T] {S : Mpi.Setup n} (hB : ∀ c, Machine.mpiBounds S c = some (Mpi.bounds S c)) (dim : Fin n)
    (src dst : Boundary n → Option (Range n)) (src' dst' : Boundary n → Range n)
    (hs : ∀ c, src (Mpi.bounds S c) = some (src' (Mpi.bounds S c))) (hd : ∀ c, dst (Mpi.bounds S c) = some (dst' (Mpi.bounds S c)))
    (fs : ∀ c, Fits (src' (Mpi.bounds S c))) (fd : ∀ c, Fits (dst' (Mpi.bounds S c)))
    (dest source : Mpi.Coord S → Mpi.Coord S) (W W' : Mpi.World S T) :
    Machine.AccHalf S dim src dst dest source W W' ↔
      Mpi.AccHalf S dim (fun c => src' (Mpi.bounds S c)) (fun c => dst' (Mpi.bounds S c)) dest source W W' := by
  constructor
  · rintro ⟨bufs, back, size, W₁, B, s, d, h0, h1, h2, h3, h4, h5, h6⟩
    have e : ∀ c, B c = Mpi.bounds S c ∧ s c = src' (Mpi.bounds S c) ∧ d c = dst' (Mpi.bounds S c) := fun c => by
      obtain ⟨a1, a2, a3⟩ := h0 c
      rw [hB c] at a1
      have b1 := Option.some.inj a1
      rw [← b1, hs c] at a2
      rw [← b1, hd c] at a3
      exact ⟨b1.symm, (Option.some.inj a2).symm, (Option.some.inj a3).symm⟩
    refine ⟨bufs, back, size, W₁, fun c => by rw [← (e c).1]; exact h1 c, fun c => ?_, h3, fun c => ?_, h5, fun c => ?_⟩
    · rw [← gather_iff (fs c), ← (e c).2.1]; exact h2 c
    · rw [← addScatter_iff (fd c), ← (e c).2.2]; exact h4 c
    · rw [← scatter_iff (fs c), ← (e c).2.1]; exact h6 c
  · rintro ⟨bufs, back, size, W₁, h1, h2, h3, h4, h5, h6⟩
    exact ⟨bufs, back, size, W₁, Mpi.bounds S, fun c => src' (Mpi.bounds S c), fun c => dst' (Mpi.bounds S c),
      fun c => ⟨hB c, hs c, hd c⟩, h1, fun c => (gather_iff (fs c) _ _ _).mpr (h2 c), h3,
      fun c => (addScatter_iff (fd c) _ _ _ _).mpr (h4 c), h5, fun c => (scatter_iff (fs c) _ _ _).mpr (h6 c)⟩

theorem mpiAccumulate_iff [Add T] {S : Mpi.Setup n} (hB : ∀ c, Machine.mpiBounds S c = some (Mpi.bounds S c))
    (hS : ∀ c, Safe (Mpi.bounds S c)) (W W' : Mpi.World S T) : Machine.MpiAccumulate S W W' ↔ Mpi.Accumulate S W W' := by
  refine mpiOverDims_congr (fun d W W' => ?_) _ W W'
  refine exists_congr fun W₁ => and_congr ?_ ?_
  · exact accHalf_iff hB d _ _ (fun B => B.ghostSourceDomain d .max) (fun B => B.ghostDomain d .min) (fun c => source_some (hS c) d _)
      (fun c => ghost_some (hS c) d _) (fun c => source_fits (hS c) d _) (fun c => ghost_fits (hS c) d _) _ _ _ _
  · exact accHalf_iff hB d _ _ (fun B => B.ghostSourceDomain d .min) (fun B => B.ghostDomain d .max) (fun c => source_some (hS c) d _)
      (fun c => ghost_some (hS c) d _) (fun c => source_fits (hS c) d _) (fun c => ghost_fits (hS c) d _) _ _ _ _

open Schnek.Lemma.Mpi in
theorem start_mono {S : Mpi.Setup n} (c : Mpi.Coord S) (hw : ∀ c i, 0 ≤ Props.innerWidth (Mpi.bounds S c) i) (i : Fin n) (k : ℕ) (hk : k < S.dims i) :
    start S i k ≤ start S i (k + 1) := by
  have := hw (update c i ⟨k, hk⟩) i
  rw [innerWidth_eq, update_self] at this
  dsimp only at this
  omega

end Schnek.Lemma.Machine
