import Verif.Lemma.ScannerToken

/-! Comments, and the whole input. -/

namespace Schnek.Lemma.Scanner

open Schnek.Scanner Schnek.Spec.Lexer Schnek.Lemma.Lexer

theorem newlines_append (v w : List Byte) : newlines (v ++ w) = newlines v + newlines w := by
  simp [newlines, List.count_append]

theorem newlines_take_drop (s : List Byte) (n : ℕ) : newlines s = newlines (s.take n) + newlines (s.drop n) := by
  rw [← newlines_append, List.take_append_drop]

theorem newlines_cons (b : Byte) (s : List Byte) : newlines (b :: s) = newlines s + (b.val == 10).toNat := by
  unfold newlines
  rw [List.count_cons]
  congr 1
  by_cases hb : b = 10
  · subst hb; rfl
  · have : b.val ≠ 10 := fun h => hb (Fin.ext h)
    have h2 : (b.val == 10) = false := by simpa using this
    rw [h2]; simp [hb]

/-- What follows the comment, when the scanner is in state `q` of the comment. -/
def cm (q : ℕ) (s : List Byte) : Option (List Byte) := if q = 9 then afterComment (42 :: s) else afterComment s

theorem afterComment_cons {b : Byte} (hb : b ≠ 42) (s : List Byte) : afterComment (b :: s) = afterComment s := by
  cases s with
  | nil => rfl
  | cons a s => rw [afterComment, if_neg (fun h => hb h.1)]

theorem afterComment_star {b : Byte} (hb : b ≠ 47) (s : List Byte) : afterComment (42 :: b :: s) = afterComment (b :: s) := by
  rw [afterComment, if_neg (fun h => hb h.2)]

theorem afterComment_suffix (s : List Byte) : ∀ r, afterComment s = some r → newlines r ≤ newlines s ∧ r.length < s.length := by
  induction s with
  | nil => intro r h; cases h
  | cons a s ih =>
    intro r h
    cases s with
    | nil => cases h
    | cons b s =>
      rw [afterComment] at h
      split at h
      · cases h
        constructor
        · rw [newlines_cons, newlines_cons]; omega
        · simp; omega
      · obtain ⟨h1, h2⟩ := ih r h
        constructor
        · rw [newlines_cons a]; omega
        · simp only [List.length_cons] at h2 ⊢; omega

/-- A comment runs to its end. -/
theorem comment_run (B : ℕ) (hB : 0 < B) (K : List Tok) (s : List Byte) : ∀ (c : Conf) (q L : ℕ), (q = 8 ∨ q = 9) →
    InComment B c s q L K →
    match cm q s with
    | some r => ∃ c', Reach B c c' ∧ AtStart B c' r (L + (newlines s - newlines r)) K
    | none => Ends B c (.ok K) := by
  induction s with
  | nil =>
    intro c q L hq hc
    obtain ⟨m, t, h, hcs, hts, hline, htoks⟩ := hc
    have hcm : cm q [] = none := by rcases hq with rfl | rfl <;> rfl
    rw [hcm]
    obtain ⟨c', m', t', hr, h', hsame, hcase⟩ := fetch h (by omega) (Or.inr ⟨hts, rfl⟩) hB
    rcases hcase with ⟨_, h2⟩ | ⟨h1, h2, h3⟩
    · simp at h2
    · have := ends_eof h' h2 h1 (by rw [hsame.cs, hcs]; rcases hq with rfl | rfl <;> rfl) (by rw [hsame.cs]; omega)
      rw [hsame.toks, htoks] at this
      exact hr.ends this
  | cons b s ih =>
    intro c q L hq hc
    obtain ⟨m, t, h, hcs, hts, hline, htoks⟩ := hc
    obtain ⟨c', m', t', hr, h', hsame, hcase⟩ := fetch h (by omega) (Or.inr ⟨hts, rfl⟩) hB
    rcases hcase with ⟨h1, h2⟩ | ⟨h1, h2, h3⟩
    swap
    · simp at h3
    have hcs' : m'.cs = q := by rw [hsame.cs, hcs]
    have hq10 : q ≠ 10 := by omega
    have hok := okComment_of hq b
    unfold okComment at hok
    simp only [Bool.and_eq_true] at hok
    obtain ⟨ht, hok⟩ := hok
    rw [Nat.blt_eq] at ht
    have hfrom : fromState m' = m' := by rw [fromState_eq _ (by omega), if_neg (by omega)]
    have hnone : m'.ts = none := hsame.none hts
    -- one character, to the state `q'`
    have hgo : ∀ q' nl, eff (findTrans q (code b)) = .go q' nl false none → (q' = 8 ∨ q' = 9 ∨ q' = 10) → nl = (b.val == 10) →
        ∃ c2, Reach B c c2 ∧ InComment B c2 s q' (L + (b.val == 10).toNat) K := by
      intro q' nl he hq' hnl
      subst hnl
      obtain ⟨m1, hm1⟩ : ∃ m1 : Regs, m1 = ⟨q', m'.act, m'.line + (b.val == 10).toNat, m'.ts, m'.te, m'.p, m'.toks⟩ :=
        ⟨_, rfl⟩
      have hm1cs : m1.cs = q' := by rw [hm1]
      have hm1ts : m1.ts = none := by rw [hm1]; exact hnone
      have hr2 := (reach_char (m' := m1) h' h1 (b := b) rfl (by omega) (by omega) (by rw [hcs']; exact ht)
        (by rw [hfrom, hcs', he, hm1]; rfl) (by omega)).1 (by omega)
      have hto : toState m1 = m1 := by
        rw [toState_eq _ (by omega)]
        split
        · rw [← hm1ts]
        · rfl
      rw [hto] at hr2
      refine ⟨_, hr.trans hr2, _, t' + 1, holds_after h' (l := 1) (by omega) ?_, ?_, ?_, ?_, ?_⟩
      · show m1.p + 1 = _
        rw [hm1]; show m'.p + 1 = _
        rw [h'.tn]; push_cast; ring
      · exact hm1cs
      · exact hm1ts
      · show m1.line = _
        rw [hm1]; show m'.line + _ = _
        rw [hsame.line, hline]
      · show m1.toks = _
        rw [hm1]; show m'.toks = _
        rw [hsame.toks, htoks]
    by_cases hend : q = 9 ∧ b.val = 47
    · obtain ⟨rfl, hb47⟩ := hend
      rw [if_pos (by simp [hb47]), decide_eq_true_eq] at hok
      obtain ⟨c2, hr2, hc2⟩ := hgo 10 false hok (by omega) (by rw [hb47]; rfl)
      have hb : b = 47 := Fin.ext hb47
      subst hb
      have hcm : cm 9 (47 :: s) = some s := rfl
      rw [hcm]
      refine ⟨c2, hr2, ?_⟩
      have hnl : newlines (47 :: s) - newlines s = 0 := by
        have h47 : ((47 : Byte).val == 10).toNat = 0 := rfl
        rw [newlines_cons, h47]; omega
      rw [hnl]
      exact hc2
    · have hne : ¬ ((q == 9) = true ∧ (b.val == 47) = true) := by
        intro h0; simp only [beq_iff_eq] at h0; exact hend h0
      rw [if_neg hne] at hok
      by_cases hstar : b.val = 42
      · rw [if_pos (by simp [hstar]), decide_eq_true_eq] at hok
        obtain ⟨c2, hr2, hc2⟩ := hgo 9 false hok (by omega) (by rw [hstar]; rfl)
        have hb : b = 42 := Fin.ext hstar
        subst hb
        have hcm : cm q (42 :: s) = cm 9 s := by
          rcases hq with rfl | rfl
          · rfl
          · exact afterComment_star (b := 42) (by decide) s
        have h42 : ((42 : Byte).val == 10).toNat = 0 := rfl
        have hih := ih c2 9 _ (Or.inr rfl) hc2
        rw [hcm]
        cases hx : cm 9 s with
        | none => rw [hx] at hih; exact hr2.ends hih
        | some r =>
          rw [hx] at hih
          obtain ⟨c3, hr3, hc3⟩ := hih
          rw [newlines_cons, h42, Nat.add_zero]
          rw [h42, Nat.add_zero] at hc3
          exact ⟨c3, hr2.trans hr3, hc3⟩
      · rw [if_neg (by simpa using hstar), decide_eq_true_eq] at hok
        obtain ⟨c2, hr2, hc2⟩ := hgo 8 _ hok (by omega) rfl
        have hb42 : b ≠ 42 := by intro h0; rw [h0] at hstar; exact hstar rfl
        have hcm : cm q (b :: s) = cm 8 s := by
          rcases hq with rfl | rfl
          · exact afterComment_cons hb42 s
          · have hb47 : b ≠ 47 := by intro h0; rw [h0] at hend; exact hend ⟨rfl, rfl⟩
            exact (afterComment_star hb47 s).trans (afterComment_cons hb42 s)
        have hih := ih c2 8 _ (Or.inl rfl) hc2
        rw [hcm]
        cases hx : cm 8 s with
        | none => rw [hx] at hih; exact hr2.ends hih
        | some r =>
          rw [hx] at hih
          obtain ⟨c3, hr3, hc3⟩ := hih
          refine ⟨c3, hr2.trans hr3, ?_⟩
          have hle := (afterComment_suffix s r hx).1
          rw [newlines_cons]
          rw [show L + (newlines s + (b.val == 10).toNat - newlines r) =
            L + (b.val == 10).toNat + (newlines s - newlines r) by omega]
          exact hc3

theorem inTok_start {B : ℕ} {c : Conf} {s : List Byte} {L : ℕ} {K : List Tok} (h : AtStart B c s L K) :
    ∃ m t, Holds B c m s t 0 ∧ InTok s L K m t 0 := by
  obtain ⟨m, t, hh, hcs, hts, hline, htoks⟩ := h
  refine ⟨m, t, hh, ?_, Or.inr ⟨hts, rfl, hcs⟩, ?_, ⟨none, isBest_zero s, ?_, ?_, fun _ => rfl⟩, fun _ => Or.inl rfl, ?_, htoks⟩
  · rw [hcs]; decide
  · rw [hcs]; rfl
  · intro i hi; rw [hcs] at hi; cases hi
  · intro hs; rw [hcs] at hs; cases hs
  · rw [hline]; simp [newlines]

/-- From one token to the next. -/
theorem token_next {B : ℕ} {c : Conf} {s : List Byte} {L : ℕ} {K : List Tok} (hs : s ≠ []) (h : AtStart B c s L K)
    (hfit : ∀ n, n ≤ s.length → Extendable (s.take n) → n < B) : TokenResult B c s L K := by
  obtain ⟨m, t, hh, hin⟩ := inTok_start h
  exact token_run B s L K hs hfit _ c m t 0 rfl (Nat.zero_le _) hh hin

theorem extendable_nil : Extendable [] := extendable_of (cs := 10) (by decide) rfl

/-- The whole input, when all tokens fit into the buffer. -/
theorem scan_run (B : ℕ) : ∀ (k : ℕ) (s : List Byte) (c : Conf) (L : ℕ) (K : List Tok), s.length ≤ k → AtStart B c s L K →
    Fits B s → ∃ toks e, Lex s L toks e ∧ Ends B c (report e (K ++ toks)) := by
  intro k
  induction k with
  | zero =>
    intro s c L K hk h hfit
    obtain rfl : s = [] := List.eq_nil_of_length_eq_zero (by omega)
    have hB : 0 < B := hfit [] .here 0 (le_refl _) (by simpa using extendable_nil)
    obtain ⟨m, t, hh, hcs, hts, hline, htoks⟩ := h
    obtain ⟨c', m', t', hr, h', hsame, hcase⟩ := fetch hh (by omega) (Or.inr ⟨hts, rfl⟩) hB
    rcases hcase with ⟨_, h2⟩ | ⟨h1, h2, h3⟩
    · simp at h2
    · have := ends_eof h' h2 h1 (by rw [hsame.cs, hcs]; rfl) (by rw [hsame.cs]; omega)
      rw [hsame.toks, htoks] at this
      refine ⟨[], .complete, .nil, ?_⟩
      rw [List.append_nil]
      exact hr.ends this
  | succ k ih =>
    intro s c L K hk h hfit
    by_cases hs : s = []
    · exact ih s c L K (by rw [hs]; simp) h hfit
    · have hB : 0 < B := hfit s .here 0 (Nat.zero_le _) (by simpa using extendable_nil)
      rcases token_next hs h (hfit s .here) with ⟨i, l, h1, h2, c2, h3, h4⟩ | ⟨i, l, h1, h2, c2, h3, h4⟩ |
        ⟨h1, b, s', h2, h3, h4⟩ | ⟨h1, b, s', h2, h3, h4, h5⟩
      · have hpos := longest_pos h1
        have hins := h1.inside
        obtain ⟨toks, e, hl, he⟩ := ih (s.drop l) c2 _ _ (by rw [List.length_drop]; omega) h4
          (fun s' hb => hfit s' (.later (.token h1 h2) hb))
        refine ⟨_, e, .token h1 h2 hl, ?_⟩
        rw [← List.append_assoc]
        exact h3.ends he
      · have hrun := comment_run B hB K (s.drop l) c2 8 _ (Or.inl rfl) h4
        have hcm : cm 8 (s.drop l) = afterComment (s.drop l) := rfl
        rw [hcm] at hrun
        cases hx : afterComment (s.drop l) with
        | none =>
          rw [hx] at hrun
          refine ⟨[], .openComment, .openComment h1 h2 hx, ?_⟩
          rw [List.append_nil]
          exact h3.ends hrun
        | some r =>
          rw [hx] at hrun
          obtain ⟨c3, hr3, hc3⟩ := hrun
          obtain ⟨hle, hlt⟩ := afterComment_suffix _ _ hx
          have hline : L + newlines (s.take l) + (newlines (s.drop l) - newlines r) = L + (newlines s - newlines r) := by
            rw [newlines_take_drop s l]; omega
          rw [hline] at hc3
          obtain ⟨toks, e, hl, he⟩ := ih r c3 _ _ (by rw [List.length_drop] at hlt; omega) hc3
            (fun s' hb => hfit s' (.later (.comment h1 h2 hx) hb))
          exact ⟨toks, e, .comment h1 h2 hx hl, (h3.trans hr3).ends he⟩
      · subst h2
        refine ⟨[], .openString, .openString (fun i n hn => h1 i n hn) h3, ?_⟩
        rw [List.append_nil]
        exact h4
      · subst h2
        refine ⟨[], .badCharacter L, .bad (fun i n hn => h1 i n hn) h3 h4, ?_⟩
        rw [List.append_nil]
        exact h5

/-- There is one way to read an input. -/
theorem lex_unique {s : List Byte} {L : ℕ} {toks : List Tok} {e : Ending} (h : Lex s L toks e) :
    ∀ toks' e', Lex s L toks' e' → toks = toks' ∧ e = e' := by
  have no_nil : ∀ i n, ¬ Longest [] i n := by
    intro i n hl
    have h1 := longest_pos hl
    have h2 := hl.inside
    simp at h2; omega
  induction h with
  | nil =>
    intro toks' e' h'
    cases h' with
    | nil => exact ⟨rfl, rfl⟩
    | token h1 => exact absurd h1 (no_nil _ _)
    | comment h1 => exact absurd h1 (no_nil _ _)
    | openComment h1 => exact absurd h1 (no_nil _ _)
  | token h1 h2 h3 ih =>
    intro toks' e' h'
    cases h' with
    | nil => exact absurd h1 (no_nil _ _)
    | token g1 g2 g3 =>
      obtain ⟨rfl, rfl⟩ := longest_unique h1 g1
      obtain ⟨rfl, rfl⟩ := ih _ _ g3
      exact ⟨rfl, rfl⟩
    | comment g1 g2 => obtain ⟨rfl, rfl⟩ := longest_unique h1 g1; exact absurd g2 h2
    | openComment g1 g2 => obtain ⟨rfl, rfl⟩ := longest_unique h1 g1; exact absurd g2 h2
    | openString g1 => exact absurd h1.here (g1 _ _ h1.inside)
    | bad g1 => exact absurd h1.here (g1 _ _ h1.inside)
  | comment h1 h2 h3 h4 ih =>
    intro toks' e' h'
    cases h' with
    | nil => exact absurd h1 (no_nil _ _)
    | token g1 g2 g3 => obtain ⟨rfl, rfl⟩ := longest_unique h1 g1; exact absurd h2 g2
    | comment g1 g2 g3 g4 =>
      obtain ⟨rfl, rfl⟩ := longest_unique h1 g1
      rw [h3] at g3
      cases g3
      exact ih _ _ g4
    | openComment g1 g2 g3 => obtain ⟨rfl, rfl⟩ := longest_unique h1 g1; rw [h3] at g3; cases g3
    | openString g1 => exact absurd h1.here (g1 _ _ h1.inside)
    | bad g1 => exact absurd h1.here (g1 _ _ h1.inside)
  | openComment h1 h2 h3 =>
    intro toks' e' h'
    cases h' with
    | nil => exact absurd h1 (no_nil _ _)
    | token g1 g2 g3 => obtain ⟨rfl, rfl⟩ := longest_unique h1 g1; exact absurd h2 g2
    | comment g1 g2 g3 g4 => obtain ⟨rfl, rfl⟩ := longest_unique h1 g1; rw [h3] at g3; cases g3
    | openComment g1 g2 g3 => exact ⟨rfl, rfl⟩
    | openString g1 => exact absurd h1.here (g1 _ _ h1.inside)
    | bad g1 => exact absurd h1.here (g1 _ _ h1.inside)
  | openString h1 h2 =>
    intro toks' e' h'
    cases h' with
    | token g1 => exact absurd g1.here (h1 _ _ g1.inside)
    | comment g1 => exact absurd g1.here (h1 _ _ g1.inside)
    | openComment g1 => exact absurd g1.here (h1 _ _ g1.inside)
    | openString => exact ⟨rfl, rfl⟩
    | bad g1 g2 g3 => exact absurd h2 (by rintro (h | h) <;> contradiction)
  | bad h1 h2 h3 =>
    intro toks' e' h'
    cases h' with
    | token g1 => exact absurd g1.here (h1 _ _ g1.inside)
    | comment g1 => exact absurd g1.here (h1 _ _ g1.inside)
    | openComment g1 => exact absurd g1.here (h1 _ _ g1.inside)
    | openString g1 g2 => exact absurd g2 (by rintro (h | h) <;> contradiction)
    | bad => exact ⟨rfl, rfl⟩

theorem extendable_prefix {s : List Byte} {k n : ℕ} (hkn : k ≤ n) (h : Extendable (s.take n)) : Extendable (s.take k) := by
  obtain ⟨i, z, hz, hm⟩ := h
  refine ⟨i, (s.drop k).take (n - k) ++ z, by simp [hz], ?_⟩
  rw [← List.append_assoc, ← List.take_add, show k + (n - k) = n by omega]
  exact hm

/-- A token that fills the buffer. -/
theorem token_hangs {B : ℕ} {s : List Byte} {L : ℕ} {K : List Tok} (hB : B ≤ s.length) (hext : Extendable (s.take B)) :
    ∀ (k : ℕ) (c : Conf) (m : Regs) (t n : ℕ), B - n = k → n ≤ B → Holds B c m s t n → InTok s L K m t n → Hangs B c := by
  intro k
  induction k with
  | zero =>
    intro c m t n hk hn h hin
    obtain rfl : n = B := by omega
    refine hangs_of_loop (B := n)
      (P := fun c => ∃ m t, Holds n c m s t n ∧ m.cs ≠ 0 ∧ (m.ts = some (t : ℤ) ∨ (m.ts = none ∧ n = 0))) ?_ c
      ⟨m, t, h, (states_lt _ hin.mem).2.1, hin.ts.imp (fun x => x.1) (fun x => ⟨x.1, x.2.1⟩)⟩
    rintro c ⟨m, t, h, hcs, hts⟩
    have htp := h.tp
    have he : c.eof = false := by
      cases he : c.eof with
      | false => rfl
      | true => have := h.cap he; omega
    have hfull := h.full he
    obtain ⟨c', m', hr, hH, hs, _, _⟩ := fetch_refill h hcs hts (le_refl n) (by omega) he
    refine ⟨c', hr, m', 0, hH, by rw [hs.cs]; exact hcs, ?_⟩
    rcases hts with hts | ⟨hts, h0⟩
    · exact Or.inl (hs.ts hts).1
    · exact Or.inr ⟨hs.none hts, h0⟩
  | succ k ih =>
    intro c m t n hk hn h hin
    obtain ⟨c', m', t', hr, h', hsame, hcase⟩ := fetch h (states_lt _ hin.mem).2.1
      (hin.ts.imp (fun x => x.1) (fun x => ⟨x.1, x.2.1⟩)) (by omega)
    rcases hcase with ⟨h1, h2⟩ | ⟨h1, h2, h3⟩
    · rcases tok_char h' (hin.same hsame) h2 h1 with ⟨c2, m2, hr2, hh2, hin2⟩ | ⟨_, hne⟩
      · exact (hr.trans hr2).hangs (ih c2 m2 t' (n + 1) (by omega) (by omega) hh2 hin2)
      · exact absurd (extendable_prefix (by omega) hext) hne
    · omega

/-- The whole input, when some token does not fit into the buffer. -/
theorem scan_hangs (B : ℕ) {s s' : List Byte} (hb : Begins s s') : ∀ (c : Conf) (L : ℕ) (K : List Tok), AtStart B c s L K →
    (∃ n, n ≤ s'.length ∧ Extendable (s'.take n) ∧ B ≤ n) → Hangs B c := by
  have here : ∀ (s : List Byte) (c : Conf) (L : ℕ) (K : List Tok), AtStart B c s L K →
      (∃ n, n ≤ s.length ∧ Extendable (s.take n) ∧ B ≤ n) → Hangs B c := by
    intro s c L K h ⟨n, hn, hext, hBn⟩
    obtain ⟨m, t, hh, hin⟩ := inTok_start h
    exact token_hangs (by omega) (extendable_prefix hBn hext) _ c m t 0 rfl (Nat.zero_le _) hh hin
  induction hb with
  | here => exact here _
  | @later input s₁ s₂ hnext hrest ih =>
    intro c L K h hlong
    by_cases hfit : ∀ n, n ≤ input.length → Extendable (input.take n) → n < B
    · have hs : input ≠ [] := by
        rintro rfl
        cases hnext with
        | token h1 => have := longest_pos h1; have := h1.inside; simp at this; omega
        | comment h1 => have := longest_pos h1; have := h1.inside; simp at this; omega
      have hB : 0 < B := hfit 0 (Nat.zero_le _) (by simpa using extendable_nil)
      rcases token_next hs h hfit with ⟨i, l, h1, h2, c2, h3, h4⟩ | ⟨i, l, h1, h2, c2, h3, h4⟩ |
        ⟨h1, b, s', h2, h3, h4⟩ | ⟨h1, b, s', h2, h3, h4, h5⟩
      · cases hnext with
        | token g1 g2 => obtain ⟨rfl, rfl⟩ := longest_unique h1 g1; exact h3.hangs (ih c2 _ _ h4 hlong)
        | comment g1 g2 => obtain ⟨rfl, rfl⟩ := longest_unique h1 g1; exact absurd g2 h2
      · cases hnext with
        | token g1 g2 => obtain ⟨rfl, rfl⟩ := longest_unique h1 g1; exact absurd h2 g2
        | comment g1 g2 g3 =>
          obtain ⟨rfl, rfl⟩ := longest_unique h1 g1
          have hrun := comment_run B hB K (input.drop l) c2 8 _ (Or.inl rfl) h4
          have hcm : cm 8 (input.drop l) = afterComment (input.drop l) := rfl
          rw [hcm, g3] at hrun
          obtain ⟨c3, hr3, hc3⟩ := hrun
          exact (h3.trans hr3).hangs (ih c3 _ _ hc3 hlong)
      · cases hnext with
        | token g1 => exact absurd g1.here (h1 _ _ g1.inside)
        | comment g1 => exact absurd g1.here (h1 _ _ g1.inside)
      · cases hnext with
        | token g1 => exact absurd g1.here (h1 _ _ g1.inside)
        | comment g1 => exact absurd g1.here (h1 _ _ g1.inside)
    · push Not at hfit
      obtain ⟨n, hn, hext, hBn⟩ := hfit
      exact here _ c L K h ⟨n, hn, hext, hBn⟩

theorem start_atStart (B : ℕ) (input : List Byte) : AtStart B (start B input) input 1 [] := by
  have h := refill_holds B [] input initRegs (by simp)
  exact ⟨_, 0, h, rfl, rfl, rfl, rfl⟩

theorem returns_iff (B : ℕ) (input : List Byte) (o : Outcome) : Returns B input o ↔ Ends B (start B input) o := Iff.rfl

end Schnek.Lemma.Scanner
