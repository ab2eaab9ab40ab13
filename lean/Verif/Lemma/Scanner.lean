import Verif.Lemma.ScannerTable
import Verif.Lemma.LexerMunch

/-! The scanner, buffer by buffer, against the longest-match rule. -/

namespace Schnek.Lemma.Scanner

open Schnek.Scanner Schnek.Spec.Lexer Schnek.Lemma.Lexer

/-- The scanner gets from `c` to `c'`. -/
def Reach (B : ℕ) (c c' : Conf) : Prop := ∃ n, ∀ k, run B (n + k) c = run B k c'

/-- The scanner comes to an end. -/
def Ends (B : ℕ) (c : Conf) (o : Outcome) : Prop := (∀ c', o ≠ .running c') ∧ ∃ n, run B n c = o

/-- The scanner never comes to an end. -/
def Hangs (B : ℕ) (c : Conf) : Prop := ∀ n, ∃ c', run B n c = .running c'

theorem Reach.refl (B : ℕ) (c : Conf) : Reach B c c := ⟨0, fun k => by rw [Nat.zero_add]⟩

theorem Reach.trans {B : ℕ} {a b c : Conf} (h : Reach B a b) (h' : Reach B b c) : Reach B a c := by
  obtain ⟨n, hn⟩ := h
  obtain ⟨m, hm⟩ := h'
  exact ⟨n + m, fun k => by rw [Nat.add_assoc, hn, hm]⟩

theorem Reach.tick {B : ℕ} {c c' : Conf} (h : tick B c = .running c') : Reach B c c' :=
  ⟨1, fun k => by rw [Nat.add_comm, run, h]⟩

/-- The scanner gets from `c` to `c'` in at least one step. -/
def ReachP (B : ℕ) (c c' : Conf) : Prop := ∃ n, 0 < n ∧ ∀ k, run B (n + k) c = run B k c'

theorem ReachP.reach {B : ℕ} {c c' : Conf} (h : ReachP B c c') : Reach B c c' := h.imp fun _ h => h.2

theorem Reach.tick_trans {B : ℕ} {a b c : Conf} (h : Schnek.Scanner.tick B a = .running b) (h' : Reach B b c) : ReachP B a c := by
  obtain ⟨m, hm⟩ := h'
  exact ⟨1 + m, by omega, fun k => by rw [show 1 + m + k = (m + k) + 1 by omega, run, h]; exact hm k⟩

theorem Reach.ends {B : ℕ} {c c' : Conf} {o : Outcome} (h : Reach B c c') (h' : Ends B c' o) : Ends B c o := by
  obtain ⟨n, hn⟩ := h
  obtain ⟨ho, m, hm⟩ := h'
  exact ⟨ho, n + m, by rw [hn, hm]⟩

theorem Ends.tick {B : ℕ} {c : Conf} {o : Outcome} (ho : ∀ c', o ≠ .running c') (h : tick B c = o) : Ends B c o := by
  refine ⟨ho, 1, ?_⟩
  rw [run, h]
  cases o with
  | running c' => exact absurd rfl (ho c')
  | _ => rfl

theorem run_stable {B : ℕ} {o : Outcome} (ho : ∀ c', o ≠ .running c') (k : ℕ) : ∀ (n : ℕ) (c : Conf), run B n c = o →
    run B (n + k) c = o
  | 0, c, h => absurd h.symm (ho c)
  | n + 1, c, h => by
    rw [show n + 1 + k = (n + k) + 1 by omega]
    rw [run] at h ⊢
    cases ht : Schnek.Scanner.tick B c with
    | running c' => rw [ht] at h; exact run_stable ho k n c' h
    | ok t => rw [ht] at h; exact h
    | error l t => rw [ht] at h; exact h
    | undef => rw [ht] at h; exact h

theorem Ends.unique {B : ℕ} {c : Conf} {o o' : Outcome} (h : Ends B c o) (h' : Ends B c o') : o = o' := by
  obtain ⟨ho, n, hn⟩ := h
  obtain ⟨ho', n', hn'⟩ := h'
  rw [← run_stable ho n' n c hn, ← run_stable ho' n n' c hn', Nat.add_comm]

theorem Hangs.not_ends {B : ℕ} {c : Conf} (h : Hangs B c) (o : Outcome) : ¬ Ends B c o := by
  rintro ⟨ho, n, hn⟩
  obtain ⟨c', hc⟩ := h n
  exact ho c' (hn ▸ hc)

theorem Reach.hangs {B : ℕ} {c c' : Conf} (h : Reach B c c') (h' : Hangs B c') : Hangs B c := by
  obtain ⟨n, hn⟩ := h
  intro k
  by_contra hne
  push Not at hne
  have := run_stable hne n k c rfl
  rw [Nat.add_comm, hn] at this
  obtain ⟨c'', hc⟩ := h' k
  exact hne c'' (this ▸ hc)

/-- The scanner is at the beginning of a character: `s` is the input from the beginning of the token, `t` the place of `s` in
the buffer, `n` the number of characters of the token seen so far. -/
structure Holds (B : ℕ) (c : Conf) (m : Regs) (s : List Byte) (t n : ℕ) : Prop where
  pc : c.pc = .next m
  tn : m.p = (t : ℤ) + n
  tp : t + n ≤ c.txt.length
  text : c.txt.drop t ++ c.rest = s
  eof : c.eof = true → c.rest = []
  full : c.eof = false → c.txt.length = B
  cap : c.eof = true → c.txt.length < B

/-- The variables after a refill. -/
structure Same (m m' : Regs) (t t' : ℕ) : Prop where
  cs : m'.cs = m.cs
  act : m'.act = m.act
  line : m'.line = m.line
  toks : m'.toks = m.toks
  ts : m.ts = some (t : ℤ) → m'.ts = some (t' : ℤ) ∧ m'.te - t' = m.te - t
  none : m.ts = none → m'.ts = none

theorem refill_holds (B : ℕ) (keep rest : List Byte) (m : Regs) (hk : keep.length ≤ B) :
    Holds B (refill B keep rest m) { m with p := keep.length } (keep ++ rest) 0 keep.length := by
  refine ⟨rfl, by simp, by simp [refill], ?_, ?_, ?_, ?_⟩
  · simp only [refill, List.drop_zero, List.append_assoc]
    rw [List.take_append_drop]
  · intro h
    simp only [refill, decide_eq_true_eq, List.length_take] at h
    simp only [refill, List.drop_eq_nil_iff]
    omega
  · intro h
    simp only [refill, decide_eq_false_iff_not, List.length_take] at h
    simp only [refill, List.length_append, List.length_take]
    omega
  · intro h
    simp only [refill, decide_eq_true_eq, List.length_take] at h
    simp only [refill, List.length_append, List.length_take]
    omega

/-- At the end of the buffer, which is not the end of the input, the buffer is filled again. -/
theorem fetch_refill {B : ℕ} {c : Conf} {m : Regs} {s : List Byte} {t n : ℕ} (h : Holds B c m s t n) (hcs : m.cs ≠ 0)
    (hts : m.ts = some (t : ℤ) ∨ (m.ts = none ∧ n = 0)) (hn : n ≤ B) (hp : t + n = c.txt.length) (he : c.eof = false) :
    ∃ c' m', ReachP B c c' ∧ Holds B c' m' s 0 n ∧ Same m m' t 0 ∧ c'.txt = c.txt.drop t ++ c.rest.take (B - n) ∧
      c'.rest = c.rest.drop (B - n) := by
  have h1 : tick B c = .running { c with pc := .out m } := by
    unfold tick
    rw [h.pc]
    have hpe : m.p = c.txt.length := by rw [h.tn, ← hp]; push_cast; rfl
    simp only [step, he]
    rw [if_pos hpe]
    simp
  have hlen : (c.txt.drop t).length = n := by rw [List.length_drop]; omega
  rcases hts with hts | ⟨hts, hn0⟩
  · have h2 : tick B { c with pc := .out m } =
        .running (refill B (c.txt.drop t) c.rest { m with te := m.te - t, ts := some 0 }) := by
      unfold tick
      simp only [he]
      rw [if_neg (show ¬ m.cs = deckError from hcs), hts]
      simp only [Bool.false_eq_true, if_false]
      rw [if_pos ⟨by omega, by omega⟩]
      simp
    have hH := refill_holds B (c.txt.drop t) c.rest { m with te := m.te - t, ts := some 0 } (by omega)
    rw [h.text, hlen] at hH
    refine ⟨_, _, Reach.tick_trans h1 (Reach.tick h2), hH, ⟨rfl, rfl, rfl, rfl, ?_, ?_⟩, ?_, ?_⟩
    · intro _; exact ⟨by simp, by simp⟩
    · intro h0; rw [h0] at hts; cases hts
    · simp only [refill, hlen]
    · simp only [refill, hlen]
  · subst hn0
    have hnil : c.txt.drop t = [] := List.eq_nil_of_length_eq_zero hlen
    have h2 : tick B { c with pc := .out m } = .running (refill B [] c.rest m) := by
      unfold tick
      simp only [he]
      rw [if_neg (show ¬ m.cs = deckError from hcs), hts]
      simp
    have hH := refill_holds B [] c.rest m (by simp)
    rw [← hnil, h.text, hnil] at hH
    refine ⟨_, _, Reach.tick_trans h1 (Reach.tick h2), hH, ⟨rfl, rfl, rfl, rfl, ?_, ?_⟩, ?_, ?_⟩
    · intro h0; rw [h0] at hts; cases hts
    · intro h0; exact h0
    · simp [refill, hnil]
    · simp [refill]

/-- The next character is in the buffer, or the end of the input has been noticed. -/
theorem fetch {B : ℕ} {c : Conf} {m : Regs} {s : List Byte} {t n : ℕ} (h : Holds B c m s t n) (hcs : m.cs ≠ 0)
    (hts : m.ts = some (t : ℤ) ∨ (m.ts = none ∧ n = 0)) (hn : n < B) :
    ∃ c' m' t', Reach B c c' ∧ Holds B c' m' s t' n ∧ Same m m' t t' ∧
      ((t' + n < c'.txt.length ∧ n < s.length) ∨ (c'.eof = true ∧ t' + n = c'.txt.length ∧ n = s.length)) := by
  have hlen : ∀ {c : Conf} {m : Regs} {t : ℕ}, Holds B c m s t n → s.length = c.txt.length - t + c.rest.length := by
    intro c m t h
    rw [← h.text, List.length_append, List.length_drop]
  have htp := h.tp
  by_cases hp : t + n < c.txt.length
  · refine ⟨c, m, t, Reach.refl B c, h, ⟨rfl, rfl, rfl, rfl, fun h => ⟨h, rfl⟩, fun h => h⟩, Or.inl ⟨hp, ?_⟩⟩
    rw [hlen h]; omega
  · have hp' : t + n = c.txt.length := by omega
    cases he : c.eof with
    | true =>
      refine ⟨c, m, t, Reach.refl B c, h, ⟨rfl, rfl, rfl, rfl, fun h => ⟨h, rfl⟩, fun h => h⟩, Or.inr ⟨he, hp', ?_⟩⟩
      rw [hlen h, h.eof he]; simp; omega
    | false =>
      obtain ⟨c', m', hr, hH, hs, htxt, hrest⟩ := fetch_refill h hcs hts (le_of_lt hn) hp' he
      refine ⟨c', m', 0, hr.reach, hH, hs, ?_⟩
      have hl := hlen hH
      have hc : c'.txt.length = c.txt.length - t + min (B - n) c.rest.length := by
        rw [htxt, List.length_append, List.length_drop, List.length_take]
      by_cases hrr : c.rest.length = 0
      · right
        have hce : c'.txt.length = n := by rw [hc, hrr]; simp; omega
        have hee : c'.eof = true := by
          by_contra hne
          have := hH.full (by simpa using hne)
          omega
        exact ⟨hee, by omega, by rw [hl, hH.eof hee, hce]; simp⟩
      · left
        have hpos : 0 < min (B - n) c.rest.length := by
          have : 0 < c.rest.length := Nat.pos_of_ne_zero hrr
          have : 0 < B - n := by omega
          exact lt_min this ‹_›
        exact ⟨by omega, by rw [hl]; omega⟩

theorem char_at {B : ℕ} {c : Conf} {m : Regs} {s : List Byte} {t n : ℕ} (h : Holds B c m s t n) (hp : t + n < c.txt.length) :
    c.txt[t + n]? = s[n]? := by
  rw [← h.text, List.getElem?_append_left (by rw [List.length_drop]; omega), List.getElem?_drop]

theorem from_table : ∀ cs < 43, actionList (at' fromStateActions cs) = if cs = 10 then [3] else [] := by decide

theorem to_table : ∀ cs < 43, actionList (at' toStateActions cs) = if cs = 8 ∨ cs = 10 then [2] else [] := by decide

theorem fromState_eq (m : Regs) (h : m.cs < 43) : fromState m = if m.cs = 10 then { m with ts := some m.p } else m := by
  unfold fromState
  rw [from_table m.cs h]
  by_cases h10 : m.cs = 10
  · rw [if_pos h10, if_pos h10]; rfl
  · rw [if_neg h10, if_neg h10]; rfl

theorem toState_eq (m : Regs) (h : m.cs < 43) : toState m = if m.cs = 8 ∨ m.cs = 10 then { m with ts := none } else m := by
  unfold toState
  rw [to_table m.cs h]
  by_cases h10 : m.cs = 8 ∨ m.cs = 10
  · rw [if_pos h10, if_pos h10]; rfl
  · rw [if_neg h10, if_neg h10]; rfl

/-- From the actions of a transition to the next character. -/
theorem reach_trans {B : ℕ} {c : Conf} {m m' : Regs} {t : ℕ} (hpc : c.pc = .trans t m) (ht : t < 75)
    (ha : applyEff c.txt m (eff t) = some m') (hcs' : m'.cs < 43) :
    (m'.cs ≠ 0 → Reach B c { c with pc := .next { toState m' with p := m'.p + 1 } }) ∧
    (m'.cs = 0 → Reach B c { c with pc := .out m' }) := by
  have h1 : tick B c = .running { c with pc := .again m' } := by
    unfold tick
    rw [hpc]
    simp only
    rw [step_trans _ _ _ ht, ha]
  have hp : (toState m').p = m'.p ∧ (toState m').cs = m'.cs := by
    rw [toState_eq m' hcs']; split <;> exact ⟨rfl, rfl⟩
  constructor
  · intro h0
    refine (Reach.tick h1).trans (Reach.tick ?_)
    unfold tick
    simp only [step]
    rw [if_neg (by rw [hp.2]; exact h0), hp.1]
  · intro h0
    refine (Reach.tick h1).trans (Reach.tick ?_)
    unfold tick
    simp only [step]
    rw [if_pos (by rw [hp.2]; exact h0)]
    rw [toState_eq m' hcs', if_neg (by omega)]

/-- One character. -/
theorem reach_char {B : ℕ} {c : Conf} {m m' : Regs} {s : List Byte} {t n : ℕ} {b : Byte} (h : Holds B c m s t n)
    (hp : t + n < c.txt.length) (hb : s[n]? = some b) (hcs : m.cs ≠ 0) (hcs43 : m.cs < 43)
    (ht : findTrans m.cs (code b) < 75) (ha : applyEff c.txt (fromState m) (eff (findTrans m.cs (code b))) = some m')
    (hcs' : m'.cs < 43) :
    (m'.cs ≠ 0 → Reach B c { c with pc := .next { toState m' with p := m'.p + 1 } }) ∧
    (m'.cs = 0 → Reach B c { c with pc := .out m' }) := by
  have hpn : m.p.toNat = t + n := by rw [h.tn]; omega
  have h1 : tick B c = .running { c with pc := .resume m } := by
    unfold tick
    rw [h.pc]
    simp only [step]
    rw [if_neg (by rw [h.tn]; omega), if_neg hcs]
  have hcsf : (fromState m).cs = m.cs := by rw [fromState_eq m hcs43]; split <;> rfl
  have h2 : tick B { c with pc := .resume m } =
      .running { c with pc := .trans (findTrans m.cs (code b)) (fromState m) } := by
    unfold tick
    simp only [step]
    rw [if_neg (by rw [h.tn]; omega), hpn, char_at h hp, hb, hcsf]
  have hr := (Reach.tick h1).trans (Reach.tick h2)
  have h3 := reach_trans (B := B) (c := { c with pc := .trans (findTrans m.cs (code b)) (fromState m) }) rfl ht ha hcs'
  exact ⟨fun h0 => hr.trans (h3.1 h0), fun h0 => hr.trans (h3.2 h0)⟩

/-- The end of the input. -/
theorem reach_eof {B : ℕ} {c : Conf} {m m' : Regs} {s : List Byte} {t n : ℕ} (h : Holds B c m s t n)
    (hp : t + n = c.txt.length) (he : c.eof = true) (hz : at' eofTrans m.cs ≠ 0)
    (ht : at' eofTrans m.cs - 1 < 75) (ha : applyEff c.txt m (eff (at' eofTrans m.cs - 1)) = some m')
    (hcs' : m'.cs < 43) (h0 : m'.cs ≠ 0) :
    Reach B c { c with pc := .next { toState m' with p := m'.p + 1 } } := by
  have hpe : m.p = c.txt.length := by rw [h.tn, ← hp]; push_cast; rfl
  have h1 : tick B c = .running { c with pc := .trans (at' eofTrans m.cs - 1) m } := by
    unfold tick
    rw [h.pc]
    simp only [step]
    rw [if_pos hpe, if_pos ⟨he, Nat.pos_of_ne_zero hz⟩]
  exact (Reach.tick h1).trans
    ((reach_trans (B := B) (c := { c with pc := .trans (at' eofTrans m.cs - 1) m }) rfl ht ha hcs').1 h0)

/-- The end of the input in a state without a match. -/
theorem ends_eof {B : ℕ} {c : Conf} {m : Regs} {s : List Byte} {t n : ℕ} (h : Holds B c m s t n)
    (hp : t + n = c.txt.length) (he : c.eof = true) (hz : at' eofTrans m.cs = 0) (hcs : m.cs ≠ 0) :
    Ends B c (.ok m.toks) := by
  have hpe : m.p = c.txt.length := by rw [h.tn, ← hp]; push_cast; rfl
  have h1 : tick B c = .running { c with pc := .out m } := by
    unfold tick
    rw [h.pc]
    simp only [step]
    rw [if_pos hpe, if_neg (by rw [hz]; simp)]
  refine (Reach.tick h1).ends (Ends.tick (by intro c' hc; cases hc) ?_)
  unfold tick
  simp only
  rw [if_neg (show ¬ m.cs = deckError from hcs), if_pos he]

/-- A place the scanner comes back to for ever. -/
theorem hangs_of_loop {B : ℕ} {P : Conf → Prop} (hP : ∀ c, P c → ∃ c', ReachP B c c' ∧ P c') : ∀ c, P c → Hangs B c := by
  have key : ∀ N, ∀ n ≤ N, ∀ c, P c → ∃ c', run B n c = .running c' := by
    intro N
    induction N with
    | zero =>
      intro n hn c _
      obtain rfl : n = 0 := by omega
      exact ⟨c, rfl⟩
    | succ N ih =>
      intro n hn c hc
      obtain ⟨c', ⟨j, hj, hr⟩, hc'⟩ := hP c hc
      by_cases hjn : j ≤ n
      · obtain ⟨k, rfl⟩ := Nat.exists_eq_add_of_le hjn
        rw [hr]
        exact ih k (by omega) c' hc'
      · by_contra hne
        push Not at hne
        have := run_stable hne (j - n) n c rfl
        rw [show n + (j - n) = j + 0 by omega, hr] at this
        exact hne c' this.symm
  intro c hc n
  exact key n n (le_refl n) c hc

end Schnek.Lemma.Scanner
