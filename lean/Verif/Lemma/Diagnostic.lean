import Verif.Spec.Diagnostic
import Mathlib.Data.Nat.Digits.Lemmas
import Mathlib.Tactic.Linarith

namespace Schnek.Lemma.Diag

open Schnek.Diagnostic Schnek.Spec

/-! ## file names -/

theorem digitChar_val (d : ℕ) (h : d < 10) : (Nat.digitChar d).toNat - 48 = d := by
  interval_cases d <;> rfl

/-- the number -/
def parseNat (l : List Char) : ℕ := Nat.ofDigits 10 (l.reverse.map fun c => c.toNat - 48)

theorem parse_decimalNat (n : ℕ) : parseNat (decimalNat n) = n := by
  unfold parseNat decimalNat
  split
  · rename_i h; subst h; rfl
  · rw [← List.map_reverse, List.reverse_reverse, List.map_map]
    have : (Nat.digits 10 n).map ((fun c => c.toNat - 48) ∘ Nat.digitChar) = Nat.digits 10 n := by
      conv_rhs => rw [← List.map_id (Nat.digits 10 n)]
      apply List.map_congr_left
      intro d hd
      exact digitChar_val d (Nat.digits_lt_base (by norm_num) hd)
    rw [this, Nat.ofDigits_digits]

theorem decimalNat_inj {m n : ℕ} (h : decimalNat m = decimalNat n) : m = n := by
  rw [← parse_decimalNat m, h, parse_decimalNat]

theorem digitChar_isDigit (d : ℕ) (h : d < 10) : (Nat.digitChar d).isDigit = true := by
  interval_cases d <;> rfl

theorem decimalNat_digit (n : ℕ) : ∀ c ∈ decimalNat n, c.isDigit = true := by
  unfold decimalNat
  split
  · intro c hc; rw [List.mem_singleton] at hc; rw [hc]; rfl
  · intro c hc
    rw [List.mem_map] at hc
    obtain ⟨d, hd, rfl⟩ := hc
    exact digitChar_isDigit d (Nat.digits_lt_base (by norm_num) (List.mem_reverse.mp hd))

theorem decimalNat_ne (n : ℕ) : decimalNat n ≠ [] := by
  unfold decimalNat
  split
  · simp
  · rename_i h
    simp [Nat.digits_eq_nil_iff_eq_zero, h]

theorem decimal_inj {i j : ℤ} (h : decimal i = decimal j) : i = j := by
  have key : ∀ m n : ℕ, '-' :: decimalNat m ≠ decimalNat n := by
    intro m n he
    have := decimalNat_digit n '-' (by rw [← he]; simp)
    simp [Char.isDigit] at this
  unfold decimal at h
  split at h <;> split at h
  · have := decimalNat_inj (List.cons_injective h)
    omega
  · exact absurd h (key _ _)
  · exact absurd h.symm (key _ _)
  · have := decimalNat_inj h
    omega

theorem decimal_ne (i : ℤ) : decimal i ≠ [] := by
  unfold decimal
  split
  · simp
  · exact decimalNat_ne _

theorem decimal_chars (i : ℤ) : ∀ c ∈ decimal i, c = '-' ∨ c.isDigit = true := by
  unfold decimal
  split
  · intro c hc
    rcases List.mem_cons.mp hc with rfl | hc
    · exact Or.inl rfl
    · exact Or.inr (decimalNat_digit _ c hc)
  · intro c hc
    exact Or.inr (decimalNat_digit _ c hc)

theorem decimal_not (i : ℤ) (x : Char) (hx : x ≠ '-') (hd : x.isDigit = false) : x ∉ decimal i := by
  intro h
  rcases decimal_chars i x h with h | h
  · exact hx h
  · rw [hd] at h; simp at h

theorem stepName_inj {t t' : ℤ} (h : stepName t = stepName t') : t = t' ∨ (t < 0 ∧ t' < 0) := by
  have key : ∀ i : ℤ, ['f', 'i', 'n', 'a', 'l'] ≠ decimal i := by
    intro i he
    exact decimal_not i 'f' (by decide) (by decide) (by rw [← he]; simp)
  unfold stepName at h
  split at h <;> split at h
  · right; constructor <;> assumption
  · exact absurd h (key _)
  · exact absurd h.symm (key _)
  · exact Or.inl (decimal_inj h)

theorem replaceFirst_cons (c : Char) (new : List Char) (a : Char) (l : List Char) (h : ¬ (a = '#' ∧ l.head? = some c)) :
    replaceFirst c new (a :: l) = a :: replaceFirst c new l := by
  cases l with
  | nil => rfl
  | cons b l =>
    rw [replaceFirst, if_neg]
    rintro ⟨h1, h2⟩
    exact h ⟨h1, by rw [h2]; rfl⟩

theorem replaceFirst_hit (c : Char) (new l : List Char) : replaceFirst c new ('#' :: c :: l) = new ++ l := by
  rw [replaceFirst, if_pos ⟨rfl, rfl⟩]

theorem placeholder_cons (c a : Char) (l : List Char) : Placeholder c (a :: l) ↔ (a = '#' ∧ l.head? = some c) ∨ Placeholder c l := by
  unfold Placeholder
  rw [List.infix_cons_iff]
  constructor
  · rintro (h | h)
    · left
      rw [List.cons_prefix_cons] at h
      refine ⟨h.1.symm, ?_⟩
      obtain ⟨t, ht⟩ := h.2
      rw [← ht]; rfl
    · exact Or.inr h
  · rintro (⟨rfl, h⟩ | h)
    · left
      cases l with
      | nil => simp at h
      | cons b l =>
        simp only [List.head?_cons, Option.some.injEq] at h
        subst h
        exact ⟨l, rfl⟩
    · exact Or.inr h

/-- without placeholder nothing is replaced -/
theorem replaceFirst_none (c : Char) (new l : List Char) (h : ¬ Placeholder c l) : replaceFirst c new l = l := by
  induction l with
  | nil => rfl
  | cons a l ih =>
    rw [placeholder_cons, not_or] at h
    rw [replaceFirst_cons c new a l h.1, ih h.2]

/-- with a placeholder the text around it stays -/
theorem replaceFirst_some (c : Char) (l : List Char) (h : Placeholder c l) :
    ∃ a b, l = a ++ '#' :: c :: b ∧ ∀ new, replaceFirst c new l = a ++ new ++ b := by
  induction l with
  | nil => simp [Placeholder] at h
  | cons x l ih =>
    by_cases hx : x = '#' ∧ l.head? = some c
    · obtain ⟨rfl, hl⟩ := hx
      cases l with
      | nil => simp at hl
      | cons y l =>
        simp only [List.head?_cons, Option.some.injEq] at hl
        subst hl
        exact ⟨[], l, rfl, fun new => replaceFirst_hit y new l⟩
    · rw [placeholder_cons] at h
      obtain ⟨a, b, h1, h2⟩ := ih (h.resolve_left hx)
      refine ⟨x :: a, b, by rw [h1]; rfl, ?_⟩
      intro new
      rw [replaceFirst_cons c new x l hx, h2 new]
      rfl

/-- text that has nothing to do with the placeholder -/
def Apart (c : Char) (s : List Char) : Prop := s ≠ [] ∧ ∀ x ∈ s, x ≠ '#' ∧ x ≠ c

theorem replaceFirst_apart (c : Char) (new s b : List Char) (hs : ∀ x ∈ s, x ≠ '#') :
    replaceFirst c new (s ++ b) = s ++ replaceFirst c new b := by
  induction s with
  | nil => rfl
  | cons x s ih =>
    rw [List.cons_append, replaceFirst_cons, ih fun y hy => hs y (by simp [hy])]
    · rfl
    · rintro ⟨h, -⟩
      exact hs x (by simp) h

/-- replacing does not depend on text apart -/
theorem replaceFirst_around (c : Char) (new a b : List Char) :
    ∃ a' b', ∀ s, Apart c s → replaceFirst c new (a ++ s ++ b) = a' ++ s ++ b' := by
  induction a with
  | nil => exact ⟨[], replaceFirst c new b, fun s hs => replaceFirst_apart c new s b fun x hx => (hs.2 x hx).1⟩
  | cons x a ih =>
    by_cases hx : x = '#' ∧ a.head? = some c
    · obtain ⟨rfl, hl⟩ := hx
      cases a with
      | nil => simp at hl
      | cons y a =>
        simp only [List.head?_cons, Option.some.injEq] at hl
        subst hl
        refine ⟨new ++ a, b, fun s _ => ?_⟩
        rw [List.append_assoc, List.cons_append, List.cons_append, replaceFirst_hit]
        simp
    · obtain ⟨a', b', h⟩ := ih
      refine ⟨x :: a', b', fun s hs => ?_⟩
      rw [List.append_assoc, List.cons_append, replaceFirst_cons, ← List.append_assoc, h s hs]
      · rfl
      · rintro ⟨h1, h2⟩
        cases a with
        | nil =>
          cases s with
          | nil => exact hs.1 rfl
          | cons y s =>
            simp only [List.nil_append, List.cons_append, List.head?_cons, Option.some.injEq] at h2
            exact (hs.2 y (by simp)).2 h2
        | cons y a => exact hx ⟨h1, by simpa using h2⟩

theorem decimal_apart (i : ℤ) (c : Char) (hx : c ≠ '-') (hd : c.isDigit = false) : Apart c (decimal i) := by
  refine ⟨decimal_ne i, ?_⟩
  intro x hx'
  constructor
  · rintro rfl
    exact decimal_not i '#' (by decide) (by decide) hx'
  · rintro rfl
    exact decimal_not i x hx hd hx'

/-- replacing one placeholder does not remove another -/
theorem placeholder_kept (c d : Char) (hcd : c ≠ d) (hc : c ≠ '#') (hd : d ≠ '#') (new l : List Char)
    (h : Placeholder c l) : Placeholder c (replaceFirst d new l) := by
  induction l with
  | nil => simp [Placeholder] at h
  | cons x l ih =>
    by_cases hx : x = '#' ∧ l.head? = some d
    · obtain ⟨rfl, hl⟩ := hx
      cases l with
      | nil => simp at hl
      | cons y l =>
        simp only [List.head?_cons, Option.some.injEq] at hl
        subst hl
        rw [replaceFirst_hit]
        rw [placeholder_cons, placeholder_cons] at h
        rcases h with ⟨-, h⟩ | ⟨h, -⟩ | h
        · simp only [List.head?_cons, Option.some.injEq] at h
          exact absurd h.symm hcd
        · exact absurd h hd
        · exact List.IsInfix.trans h (List.suffix_append new l).isInfix
    · rw [replaceFirst_cons d new x l hx]
      rw [placeholder_cons] at h ⊢
      rcases h with ⟨rfl, h⟩ | h
      · left
        refine ⟨rfl, ?_⟩
        cases l with
        | nil => simp at h
        | cons y l =>
          simp only [List.head?_cons, Option.some.injEq] at h
          subst h
          by_cases hy : y = '#' ∧ l.head? = some d
          · exact absurd hy.1 hc
          · rw [replaceFirst_cons d new y l hy]; rfl
      · exact Or.inr (ih h)

/-! ## one diagnostic -/

theorem files_append (f : Option (List Char)) (l l' : List Call) :
    files f (l ++ l') = (files f l).bind fun r => (files r.2 l').map fun r' => (r.1 ++ r'.1, r'.2) := by
  induction l generalizing f with
  | nil =>
    rw [List.nil_append, files, Option.bind_some]
    cases h : files f l' with
    | none => simp [h]
    | some r => simp [h]
  | cons c l ih =>
    rcases f with _ | f <;> cases c <;> simp only [List.cons_append, files, Option.bind_none, ih]
    rw [Option.map_bind, Option.bind_map]
    congr 1
    funext r
    simp [Function.comp_def]

theorem interval_execute (d : Interval) (master : Bool) (rank t : ℤ) (hi : d.interval ≠ 0) (hs : d.single = true → master = true) :
    d.execute master rank t = some ((if t = 0 ∧ d.append = true then [.open d.fname] else []) ++
      if Due d.interval t then output d.toSettings rank t else []) := by
  have h1 : (d.single && !master) = false := by
    cases hd : d.single
    · rfl
    · rw [hs hd]; rfl
  unfold Interval.execute
  rw [h1]
  simp only [Bool.false_eq_true, if_false]
  by_cases ht : t < 0
  · rw [if_pos ht, if_pos (show Due d.interval t from Or.inl ht)]
  · rw [if_neg ht, if_neg hi]
    have : t.tmod d.interval = 0 ↔ Due d.interval t := by
      unfold Due
      rw [Int.dvd_iff_tmod_eq_zero]
      constructor
      · exact Or.inr
      · rintro (h | h)
        · exact absurd h ht
        · exact h
    by_cases hd : Due d.interval t
    · rw [if_pos (this.mpr hd), if_pos hd]
    · rw [if_neg (fun h => hd (this.mp h)), if_neg hd, List.append_nil]

theorem callsFor_cons (d : Interval) (master : Bool) (rank t : ℤ) (ts : List ℤ) :
    callsFor d master rank (t :: ts) = (d.execute master rank t).bind fun c => (callsFor d master rank ts).map (c ++ ·) := by
  unfold callsFor
  rw [List.mapM_cons]
  rcases d.execute master rank t with _ | c
  · rfl
  · rcases ts.mapM (d.execute master rank) with _ | cs
    · rfl
    · rfl

variable {K : Type} [Field K] [LinearOrder K] [IsStrictOrderedRing K]

theorem mapM_get {α β : Type} {f : α → Option β} {l : List α} {r : List β} (h : l.mapM f = some r) :
    ∀ (i : ℕ) (a : α), l[i]? = some a → ∃ b, f a = some b ∧ r[i]? = some b := by
  induction l generalizing r with
  | nil => simp
  | cons x l ih =>
    rw [List.mapM_cons] at h
    rcases hx : f x with _ | y
    · rw [hx] at h; simp at h
    · rcases hl : l.mapM f with _ | ys
      · rw [hx, hl] at h; simp at h
      · rw [hx, hl] at h
        have h : y :: ys = r := by simpa using h
        subst h
        intro i a hi
        cases i with
        | zero =>
          simp only [List.getElem?_cons_zero, Option.some.injEq] at hi
          subst hi
          exact ⟨y, hx, rfl⟩
        | succ i => exact ih hl i a (by simpa using hi)

theorem adjust_spec (M : Manager K) (now dt a : K) (h : M.adjustDeltaT now dt = some a) :
    a ≤ dt ∧ (0 < dt → 0 < a) ∧ ∀ d ∈ M.deltas, now < d.nextOutput → now + a ≤ d.nextOutput := by
  unfold Manager.adjustDeltaT at h
  have key : ∀ (l : List (Delta K)) (dt : K), l.foldlM (fun (adjusted : K) d =>
      if M.physicalTime && d.alive then
        let left := d.nextOutput - now
        some (if 0 < left then min adjusted left else adjusted)
      else none) dt = some a → a ≤ dt ∧ (0 < dt → 0 < a) ∧ ∀ d ∈ l, now < d.nextOutput → now + a ≤ d.nextOutput := by
    intro l
    induction l with
    | nil =>
      intro dt h
      have h : dt = a := by simpa using h
      subst h
      exact ⟨le_rfl, id, by simp⟩
    | cons d l ih =>
      intro dt h
      rw [List.foldlM_cons] at h
      split at h
      · simp only [Option.bind_eq_bind, Option.bind_some] at h
        obtain ⟨h1, h2, h3⟩ := ih _ h
        have hle : (if 0 < d.nextOutput - now then min dt (d.nextOutput - now) else dt) ≤ dt := by
          split
          · exact min_le_left _ _
          · exact le_rfl
        refine ⟨h1.trans hle, ?_, ?_⟩
        · intro hdt
          refine h2 ?_
          split
          · rename_i hp
            exact lt_min hdt hp
          · exact hdt
        · intro d' hd' hn
          rcases List.mem_cons.mp hd' with rfl | hd'
          · rw [if_pos (by linarith)] at h1
            have := h1.trans (min_le_right _ _)
            linarith
          · exact h3 d' hd' hn
      · simp at h
  exact key _ dt h

theorem execute_ok {M M' : Manager K} {t : ℤ} {now : K} {c c' : List (List Call)} (h : M.execute t now = .ok c c' M') :
    M'.master = M.master ∧ M'.rank = M.rank ∧ M'.intervals = M.intervals ∧
    (∀ (i : ℕ) (d : Delta K), M.deltas[i]? = some d → c'[i]? = some (d.execute M.master M.rank now).1 ∧
      M'.deltas[i]? = some (d.execute M.master M.rank now).2) ∧
    ∀ (i : ℕ) (d : Interval), M.intervals[i]? = some d → ∃ l, d.execute M.master M.rank t = some l ∧ c[i]? = some l := by
  unfold Manager.execute at h
  split at h
  · simp at h
  · rcases hi : executeIntervals M.timecounter M.master M.rank t M.intervals with _ | calls
    · rw [hi] at h; simp at h
    · rw [hi] at h
      rcases hd : executeDeltas M.physicalTime M.master M.rank now M.deltas with _ | l
      · rw [hd] at h; simp at h
      · rw [hd] at h
        simp only [Outcome.ok.injEq] at h
        obtain ⟨h1, h2, h3⟩ := h
        subst h1 h2 h3
        refine ⟨rfl, rfl, rfl, ?_, ?_⟩
        · intro i d hdi
          obtain ⟨b, hb, hl⟩ := mapM_get hd i d hdi
          split at hb
          · rw [Option.some.injEq] at hb
            subst hb
            simp [hl]
          · simp at hb
        · intro i d hdi
          obtain ⟨b, hb, hl⟩ := mapM_get hi i d hdi
          split at hb
          · exact ⟨b, hb, hl⟩
          · simp at hb

theorem simulate_cons {M : Manager K} {t : ℤ} {now dt : K} {dts : List K} {log : List (Entry K)}
    (h : simulate M t now (dt :: dts) = some log) : ∃ c c' M' a log', M.execute t now = .ok c c' M' ∧ M'.adjustDeltaT now dt = some a ∧
      simulate M' (t + 1) (now + a) dts = some log' ∧ log = ⟨t, now, c, c'⟩ :: log' := by
  rw [simulate] at h
  split at h
  · rename_i c c' M' he
    split at h
    · rename_i a ha
      rw [Option.map_eq_some_iff] at h
      obtain ⟨log', h1, h2⟩ := h
      exact ⟨c, c', M', a, log', he, ha, h1, h2.symm⟩
    · simp at h
  · simp at h

theorem simulate_now {dts : List K} : ∀ {M : Manager K} {t : ℤ} {now : K} {log : List (Entry K)},
    simulate M t now dts = some log → (∀ dt ∈ dts, 0 < dt) → ∀ e ∈ log, now ≤ e.now := by
  induction dts with
  | nil =>
    intro M t now log h _
    have : log = [] := by simpa [simulate] using h.symm
    subst this
    simp
  | cons dt dts ih =>
    intro M t now log h hpos e he
    obtain ⟨c, c', M', a, log', h1, h2, h3, rfl⟩ := simulate_cons h
    rcases List.mem_cons.mp he with rfl | he
    · exact le_rfl
    · have := ih h3 (fun x hx => hpos x (by simp [hx])) e he
      have := (adjust_spec M' now dt a h2).2.1 (hpos dt (by simp))
      linarith

theorem write_mem_output (s : Settings) (rank t : ℤ) : Call.write ∈ output s rank t := by
  unfold output; simp

theorem sim_delta (i : ℕ) {dts : List K} : ∀ {M : Manager K} {t : ℤ} {now : K} {log : List (Entry K)} {d : Delta K},
    simulate M t now dts = some log → M.deltas[i]? = some d → 0 < d.deltaTime → now ≤ d.nextOutput → 0 ≤ now →
    (d.single = true → M.master = true) → (∀ dt ∈ dts, 0 < dt) →
    ∃ m : ℕ, writeTimes i log = (List.range m).map (fun k : ℕ => d.nextOutput + (k : K) * d.deltaTime) ∧
      (∀ k : ℕ, k < m ↔ ∃ e ∈ log, d.nextOutput + k * d.deltaTime ≤ e.now) ∧
      log.flatMap (callsOf i) = (if 0 = now ∧ d.append = true ∧ log ≠ [] then [.open d.fname] else []) ++
        (List.range m).flatMap fun k => output d.toSettings M.rank (d.count + k : ℕ) := by
  induction dts with
  | nil =>
    intro M t now log d h _ _ _ _ _ _
    have : log = [] := by simpa [simulate] using h.symm
    subst this
    exact ⟨0, by simp [writeTimes], by simp, by simp⟩
  | cons dt dts ih =>
    intro M t now log d h hd hdelta hnext hnow hs hpos
    obtain ⟨c, c', M', a, log', h1, h2, h3, rfl⟩ := simulate_cons h
    obtain ⟨e1, e2, -, e4, -⟩ := execute_ok h1
    obtain ⟨e5, e6⟩ := e4 i d hd
    have hpos' : ∀ x ∈ dts, 0 < x := fun x hx => hpos x (by simp [hx])
    obtain ⟨a1, a2, a3⟩ := adjust_spec M' now dt a h2
    have ha := a2 (hpos dt (by simp))
    have hlate := simulate_now h3 hpos'
    have hsm : (d.single && !M.master) = false := by
      cases hds : d.single
      · rfl
      · rw [hs hds]; rfl
    have hmem := List.mem_of_getElem? e6
    unfold Delta.execute at e5 e6 hmem
    rw [hsm] at e5 e6 hmem
    simp only [Bool.false_eq_true, if_false] at e5 e6 hmem
    have hcalls : callsOf i (⟨t, now, c, c'⟩ : Entry K) = c'[i]?.getD [] := rfl
    by_cases hdue : d.nextOutput ≤ now
    · have hnn : d.nextOutput = now := le_antisymm hdue hnext
      rw [if_pos hdue] at e5 e6 hmem
      obtain ⟨m, i1, i2, i3⟩ := ih h3 e6 hdelta (a3 _ hmem (by simp only; linarith)) (by linarith) (by rw [e1]; exact hs) hpos'
      simp only at i1 i2 i3
      rw [e5, Option.getD_some] at hcalls
      refine ⟨m + 1, ?_, ?_, ?_⟩
      · unfold writeTimes at i1 ⊢
        rw [List.filter_cons_of_pos, List.map_cons, i1, List.range_succ_eq_map, List.map_cons, List.map_map]
        · simp only [Nat.cast_zero, zero_mul, add_zero, hnn, List.cons.injEq, true_and]
          apply List.map_congr_left
          intro k _
          simp only [Function.comp, Nat.cast_succ]
          ring
        · rw [decide_eq_true_iff, hcalls]
          exact List.mem_append_right _ (write_mem_output _ _ _)
      · intro k
        cases k with
        | zero =>
          simp only [Nat.zero_lt_succ, true_iff]
          exact ⟨_, List.mem_cons_self, by simp [hnn]⟩
        | succ k =>
          rw [Nat.succ_lt_succ_iff, i2 k]
          have hk : d.nextOutput + ((k + 1 : ℕ) : K) * d.deltaTime = d.nextOutput + d.deltaTime + k * d.deltaTime := by
            push_cast; ring
          constructor
          · rintro ⟨e, he, hle⟩
            exact ⟨e, List.mem_cons_of_mem _ he, by rw [hk]; exact hle⟩
          · rintro ⟨e, he, hle⟩
            rcases List.mem_cons.mp he with rfl | he
            · have : (0 : K) ≤ k * d.deltaTime := mul_nonneg (Nat.cast_nonneg k) hdelta.le
              rw [hk] at hle
              simp only at hle
              linarith
            · exact ⟨e, he, by rw [hk] at hle; exact hle⟩
      · rw [List.flatMap_cons, i3, hcalls, if_neg (show ¬ (0 = now + a ∧ _) from fun hh => by linarith [hh.1]), List.range_succ_eq_map,
          List.flatMap_cons, List.flatMap_map, e2]
        simp only [ne_eq, reduceCtorEq, not_false_eq_true, and_true, List.nil_append, List.append_assoc, Nat.add_zero]
        congr 3
        funext k
        rw [show d.count + 1 + k = d.count + k.succ by omega]
    · have hlt : now < d.nextOutput := not_le.mp hdue
      rw [if_neg hdue] at e5 e6 hmem
      obtain ⟨m, i1, i2, i3⟩ := ih h3 e6 hdelta (a3 _ hmem hlt) (by linarith) (by rw [e1]; exact hs) hpos'
      rw [e5, Option.getD_some] at hcalls
      refine ⟨m, ?_, ?_, ?_⟩
      · rw [← i1]
        unfold writeTimes
        rw [List.filter_cons_of_neg]
        rw [hcalls]
        split <;> simp
      · intro k
        rw [i2 k]
        constructor
        · rintro ⟨e, he, hle⟩
          exact ⟨e, List.mem_cons_of_mem _ he, hle⟩
        · rintro ⟨e, he, hle⟩
          rcases List.mem_cons.mp he with rfl | he
          · have : (0 : K) ≤ k * d.deltaTime := mul_nonneg (Nat.cast_nonneg k) hdelta.le
            simp only at hle
            linarith
          · exact ⟨e, he, hle⟩
      · rw [List.flatMap_cons, i3, hcalls, if_neg (show ¬ (0 = now + a ∧ _) from fun hh => by linarith [hh.1]), e2]
        simp

end Schnek.Lemma.Diag
