import Verif.Lemma.Scanner
import Mathlib.Tactic.Ring

/-! One token. -/

namespace Schnek.Lemma.Scanner

open Schnek.Scanner Schnek.Spec.Lexer Schnek.Lemma.Lexer

/-- Quotes are the only characters that lead to the states of string literals, and they lead nowhere else. -/
def okQuote (b : Byte) : Bool :=
  match eff (findTrans 10 (code b)) with
  | .go cs _ _ _ => if unmatched cs then b.val == 34 || b.val == 39 else true
  | .bad => b.val != 34 && b.val != 39
  | .shut _ (.quoted _) => false
  | _ => true

theorem okQuote_all : ((List.finRange 256).all fun b => okQuote b) = true := by decide +kernel

theorem okQuote_of (b : Byte) : okQuote b = true := List.all_eq_true.1 okQuote_all b (List.mem_finRange b)

theorem newlines_take_succ {s : List Byte} {n : ℕ} {b : Byte} (h : s[n]? = some b) :
    newlines (s.take (n + 1)) = newlines (s.take n) + (b.val == 10).toNat := by
  unfold newlines
  rw [List.take_add_one, h, List.count_append]
  simp only [Option.toList_some, List.count_singleton]
  congr 1
  by_cases hb : b = 10
  · subst hb; rfl
  · have : b.val ≠ 10 := fun h => hb (Fin.ext h)
    have h2 : (b.val == 10) = false := by simpa using this
    rw [h2]; simp [hb]

/-- The scanner is at the beginning of a token. -/
def AtStart (B : ℕ) (c : Conf) (s : List Byte) (L : ℕ) (K : List Tok) : Prop :=
  ∃ m t, Holds B c m s t 0 ∧ m.cs = 10 ∧ m.ts = none ∧ m.line = L ∧ m.toks = K

/-- The scanner is inside a comment. -/
def InComment (B : ℕ) (c : Conf) (s : List Byte) (q L : ℕ) (K : List Tok) : Prop :=
  ∃ m t, Holds B c m s t 0 ∧ m.cs = q ∧ m.ts = none ∧ m.line = L ∧ m.toks = K

/-- The scanner is inside a token that begins where `s` is left, and has seen `n` characters of it. -/
structure InTok (s : List Byte) (L : ℕ) (K : List Tok) (m : Regs) (t n : ℕ) : Prop where
  mem : m.cs ∈ states
  ts : (m.ts = some (t : ℤ) ∧ 0 < n ∧ m.cs ≠ 10) ∨ (m.ts = none ∧ n = 0 ∧ m.cs = 10)
  vec : vecOf (s.take n) = resid m.cs
  best : ∃ best, IsBest s n best ∧ (∀ i, known m.cs = some i → best = some (i, n)) ∧
    (stored m.cs = true → ∃ l : ℕ, m.te = (t : ℤ) + l ∧ best = some (if slash m.cs then 10 else m.act - 1, l) ∧
      newlines (s.take l) = newlines (s.take n) ∧ (slash m.cs = false → m.act ∈ acts)) ∧
    (unmatched m.cs = true → best = none)
  quote : unmatched m.cs = true → n = 0 ∨ ∃ b s', s = b :: s' ∧ (b = 34 ∨ b = 39)
  line : m.line = L + newlines (s.take n)
  toks : m.toks = K

theorem InTok.same {s : List Byte} {L : ℕ} {K : List Tok} {m m' : Regs} {t t' n : ℕ} (h : InTok s L K m t n)
    (hs : Same m m' t t') : InTok s L K m' t' n := by
  obtain ⟨best, hb, hk, hst, hu⟩ := h.best
  refine ⟨hs.cs ▸ h.mem, ?_, hs.cs ▸ h.vec, ⟨best, hb, ?_, ?_, ?_⟩, ?_, ?_, ?_⟩
  · rcases h.ts with ⟨h1, h2, h3⟩ | ⟨h1, h2, h3⟩
    · exact Or.inl ⟨(hs.ts h1).1, h2, hs.cs ▸ h3⟩
    · exact Or.inr ⟨hs.none h1, h2, hs.cs ▸ h3⟩
  · rw [hs.cs]; exact hk
  · rw [hs.cs, hs.act]
    intro hst'
    obtain ⟨l, h1, h2⟩ := hst hst'
    rcases h.ts with ⟨h3, _, _⟩ | ⟨_, _, h3⟩
    · exact ⟨l, by have := (hs.ts h3).2; omega, h2⟩
    · rw [h3] at hst'; cases hst'
  · rw [hs.cs]; exact hu
  · rw [hs.cs]; exact h.quote
  · rw [hs.line]; exact h.line
  · rw [hs.toks]; exact h.toks

/-- What has become of a token. -/
def TokenResult (B : ℕ) (c : Conf) (s : List Byte) (L : ℕ) (K : List Tok) : Prop :=
  (∃ i l, Longest s i l ∧ useOf i ≠ .comment ∧ ∃ c', Reach B c c' ∧
    AtStart B c' (s.drop l) (L + newlines (s.take l)) (K ++ emitted (L + newlines (s.take l)) (s.take l) (useOf i))) ∨
  (∃ i l, Longest s i l ∧ useOf i = .comment ∧ ∃ c', Reach B c c' ∧
    InComment B c' (s.drop l) 8 (L + newlines (s.take l)) K) ∨
  ((∀ i k, k ≤ s.length → ¬ PatMatches i (s.take k)) ∧ ∃ b s', s = b :: s' ∧ (b = 34 ∨ b = 39) ∧ Ends B c (.ok K)) ∨
  ((∀ i k, k ≤ s.length → ¬ PatMatches i (s.take k)) ∧ ∃ b s', s = b :: s' ∧ b ≠ 34 ∧ b ≠ 39 ∧ Ends B c (.error L K))

theorem TokenResult.of_reach {B : ℕ} {c c' : Conf} {s : List Byte} {L : ℕ} {K : List Tok} (hr : Reach B c c')
    (h : TokenResult B c' s L K) : TokenResult B c s L K := by
  rcases h with ⟨i, l, h1, h2, c2, h3, h4⟩ | ⟨i, l, h1, h2, c2, h3, h4⟩ | ⟨h1, b, s', h2, h3, h4⟩ | ⟨h1, b, s', h2, h3, h4, h5⟩
  · exact Or.inl ⟨i, l, h1, h2, c2, hr.trans h3, h4⟩
  · exact Or.inr (Or.inl ⟨i, l, h1, h2, c2, hr.trans h3, h4⟩)
  · exact Or.inr (Or.inr (Or.inl ⟨h1, b, s', h2, h3, hr.ends h4⟩))
  · exact Or.inr (Or.inr (Or.inr ⟨h1, b, s', h2, h3, h4, hr.ends h5⟩))

/-- The place after a token of length `l`. -/
theorem holds_after {B : ℕ} {c : Conf} {m m' : Regs} {s : List Byte} {t n l : ℕ} (h : Holds B c m s t n)
    (hl : t + l ≤ c.txt.length) (hp : m'.p = (t : ℤ) + l) :
    Holds B { c with pc := .next m' } m' (s.drop l) (t + l) 0 := by
  refine ⟨rfl, by rw [hp]; push_cast; ring, by simpa using hl, ?_, h.eof, h.full, h.cap⟩
  rw [← h.text, List.drop_append_of_le_length (by rw [List.length_drop]; omega), List.drop_drop]

theorem emitText_eq {B : ℕ} {c : Conf} {m m' : Regs} {s : List Byte} {t n : ℕ} (h : Holds B c m s t n) (kind : Kind)
    (hk : kind ≠ .pathIdentifier) {a l : ℕ} {x y : ℤ} (hx : x = (t : ℤ) + a) (hy : y = l) (hl : t + a + l ≤ c.txt.length) :
    m'.emitText c.txt kind x y = some { m' with toks := m'.toks ++ [⟨m'.line, kind, (s.drop a).take l⟩] } := by
  unfold Regs.emitText
  rw [if_pos ⟨by omega, by omega, by omega⟩]
  have hxa : x.toNat = t + a := by omega
  have hyl : y.toNat = l := by omega
  rw [hxa, hyl]
  unfold Tok.make
  rw [if_neg hk, ← h.text, List.drop_append_of_le_length (by rw [List.length_drop]; omega), List.drop_drop,
    List.take_append_of_le_length (by rw [List.length_drop]; omega)]

/-- Inserting the token for a match of `l` characters. -/
theorem emitUse_eq {B : ℕ} {c : Conf} {m m' : Regs} {s : List Byte} {t n l i : ℕ} (h : Holds B c m s t n)
    (hts : m'.ts = some (t : ℤ)) (hte : m'.te = (t : ℤ) + l) (hl : t + l ≤ c.txt.length) (hpos : 0 < l)
    (hne : useOf i ≠ .comment) (hquote : ∀ k, useOf i = .quoted k → k = .string ∧ 2 ≤ l)
    (htext : ∀ k, useOf i = .tokenText k → k ≠ .pathIdentifier) (htok : ∀ k, useOf i = .token k → k ≠ .pathIdentifier) :
    emitUse c.txt m' (useOf i) = some { m' with toks := m'.toks ++ emitted m'.line (s.take l) (useOf i) } := by
  have hsl : l ≤ s.length := by
    rw [← h.text, List.length_append, List.length_drop]; omega
  cases hu : useOf i with
  | token k =>
    simp only [emitUse, emitted, Regs.emit, Tok.make]
    rw [if_neg (htok k hu)]
  | tokenText k =>
    simp only [emitUse, emitted, Regs.emitToken, hts]
    rw [emitText_eq h k (htext k hu) (a := 0) (l := l) (by simp) (by omega) (by simpa using hl), List.drop_zero]
    simp only [hts]
  | quoted k =>
    obtain ⟨rfl, hl2⟩ := hquote k hu
    simp only [emitUse, emitted, Regs.emitString, hts]
    rw [emitText_eq h .string (by decide) (a := 1) (l := l - 2) (by push_cast; ring) (by omega) (by omega)]
    have : (s.take l).length = l := by rw [List.length_take]; omega
    rw [this, List.drop_take, List.take_take, Nat.min_eq_left (by omega)]
    simp only [hts]
  | skip => simp only [emitUse, emitted, List.append_nil]
  | comment => exact absurd hu hne

theorem use_table : ∀ i, (∀ k, useOf i = .quoted k → k = .string) ∧ (∀ k, useOf i = .tokenText k → k ≠ .pathIdentifier) ∧
    (∀ k, useOf i = .token k → k ≠ .pathIdentifier) := by
  intro i
  rcases Nat.lt_or_ge i 27 with h | h
  · have : ∀ i < 27, (∀ k, useOf i = .quoted k → k = .string) ∧ (∀ k, useOf i = .tokenText k → k ≠ .pathIdentifier) ∧
        (∀ k, useOf i = .token k → k ≠ .pathIdentifier) := by
      intro i hi
      interval_cases i <;>
        refine ⟨fun k hk => ?_, fun k hk => ?_, fun k hk => ?_⟩ <;>
        first
        | (exfalso; revert hk; show ¬ _; simp [useOf, patterns]; done)
        | (have h2 := hk; simp [useOf, patterns] at h2; subst h2; decide)
    exact this i h
  · have : useOf i = .skip := by
      unfold useOf
      rw [List.getElem?_eq_none (by simpa [patterns] using h)]
      rfl
    rw [this]
    refine ⟨?_, ?_, ?_⟩ <;> intro k hk <;> cases hk

/-- Inserting the token and going on after it. -/
theorem finish {B : ℕ} {c : Conf} {m m' m'' : Regs} {s : List Byte} {t n l i L : ℕ} {K : List Tok} (h : Holds B c m s t n)
    (hlong : Longest s i l) (hne : useOf i ≠ .comment)
    (hts : m'.ts = some (t : ℤ)) (hte : m'.te = (t : ℤ) + l) (hp : m'.p + 1 = (t : ℤ) + l) (hcs : m'.cs = 10)
    (hline : m'.line = L + newlines (s.take l)) (htoks : m'.toks = K) (hl : t + l ≤ c.txt.length)
    (hquote : ∀ k, useOf i = .quoted k → 2 ≤ l)
    (hm : emitUse c.txt m' (useOf i) = some m'')
    (hr : Reach B c { c with pc := .next { toState m'' with p := m''.p + 1 } }) :
    TokenResult B c s L K := by
  obtain ⟨u1, u2, u3⟩ := use_table i
  rw [emitUse_eq h hts hte hl (longest_pos hlong) hne (fun k hk => ⟨u1 k hk, hquote k hk⟩) u2 u3] at hm
  obtain rfl := Option.some.inj hm
  refine Or.inl ⟨i, l, hlong, hne, _, hr, _, t + l, holds_after h hl ?_, ?_, ?_, ?_, ?_⟩
  · exact hp
  · rw [toState_eq _ (by simp [hcs]), if_pos (by simp [hcs])]
    exact hcs
  · rw [toState_eq _ (by simp [hcs]), if_pos (by simp [hcs])]
  · rw [toState_eq _ (by simp [hcs]), if_pos (by simp [hcs])]
    exact hline
  · rw [toState_eq _ (by simp [hcs]), if_pos (by simp [hcs])]
    show m'.toks ++ _ = _
    rw [htoks, hline]

theorem states_lt : ∀ cs ∈ states, cs < 43 ∧ cs ≠ 0 ∧ cs ≠ 8 := by decide

theorem fromState_tok {s : List Byte} {L : ℕ} {K : List Tok} {m : Regs} {t n : ℕ} (h : InTok s L K m t n)
    (hp : m.p = (t : ℤ) + n) : fromState m = { m with ts := some (t : ℤ) } := by
  rw [fromState_eq m (states_lt _ h.mem).1]
  rcases h.ts with ⟨h1, _, h3⟩ | ⟨h1, h2, h3⟩
  · rw [if_neg h3, ← h1]
  · rw [if_pos h3]
    subst h2
    rw [hp]; simp

theorem extendable_of {w : List Byte} {cs : ℕ} (hcs : cs ∈ states) (hv : vecOf w = resid cs) : Extendable w := by
  have h := List.all_eq_true.1 moreWord_all cs hcs
  rw [Bool.and_eq_true] at h
  obtain ⟨⟨i, r⟩, hi, hn⟩ := List.any_eq_true.1 h.2
  have hne : moreWord cs ≠ [] := by
    intro h0; rw [h0] at h; simp at h
  refine ⟨i, moreWord cs, hne, (patMatches_append w i _ hne).2 ⟨r, ?_, (matches_foldl _ _).1 hn⟩⟩
  rw [hv]; exact hi

theorem act_table : ∀ a ∈ acts, useOf (a - 1) ≠ .comment ∧ (∀ k, useOf (a - 1) ≠ .quoted k) ∧ 1 ≤ a := by
  intro a ha
  simp only [acts, List.mem_cons, List.not_mem_nil, or_false] at ha
  rcases ha with rfl | rfl | rfl | rfl | rfl | rfl | rfl | rfl <;>
    refine ⟨by decide, fun k hk => ?_, by decide⟩ <;> simp [useOf, patterns] at hk

/-- The action that goes back to the last match inserts the token of that match. -/
theorem lastMatch_eq (txt : List Byte) (m : Regs) (ha : m.act ∈ acts) :
    lastMatch txt m = emitUse txt { m with p := m.te - 1 } (useOf (m.act - 1)) := by
  unfold lastMatch
  simp only [acts, List.mem_cons, List.not_mem_nil, or_false] at ha
  rcases ha with h | h | h | h | h | h | h | h <;> rw [h] <;> rfl

theorem unmatched_table : ∀ cs ∈ states, unmatched cs = true → known cs = none ∧ stored cs = false := by decide

theorem slash_table : ∀ cs ∈ states, (stored cs = true ∨ known cs = none ∨ (known cs).isSome) := by decide

theorem known_table : ∀ cs ∈ states, ∀ i, known cs = some i → useOf i ≠ .comment ∧ (∀ k, useOf i ≠ .quoted k) ∧ cs ≠ 10 := by
  have h : ∀ cs ∈ states, known cs = none ∨ (cs ≠ 10 ∧ (known cs = some 26 ∨ known cs = some 10 ∨ known cs = some 25 ∨
      known cs = some 19 ∨ known cs = some 12 ∨ known cs = some 18)) := by decide
  intro cs hcs i hi
  rcases h cs hcs with h | ⟨h10, h⟩
  · rw [h] at hi; cases hi
  · rw [hi] at h
    simp only [Option.some.injEq] at h
    rcases h with rfl | rfl | rfl | rfl | rfl | rfl <;>
      refine ⟨by decide, fun k hk => ?_, h10⟩ <;> simp [useOf, patterns] at hk

/-- The transitions that end a token before the current character. -/
def okBack (cs : ℕ) : Eff → Bool
  | .back u =>
    match known cs with
    | some i => decide (useOf i = u)
    | none => false
  | .rewind => stored cs && slash cs
  | .last => stored cs && !slash cs
  | _ => false

theorem finish_back {B : ℕ} {c : Conf} {m : Regs} {s : List Byte} {t n L : ℕ} {K : List Tok} (h : Holds B c m s t n)
    (hin : InTok s L K m t n) (hn : n ≤ s.length) (hmore : ∀ j k, n < k → k ≤ s.length → ¬ PatMatches j (s.take k)) (e : Eff)
    (he : okBack m.cs e = true) :
    ∃ m', applyEff c.txt { m with ts := some (t : ℤ) } e = some m' ∧ m'.cs = 10 ∧
      (Reach B c { c with pc := .next { toState m' with p := m'.p + 1 } } → TokenResult B c s L K) := by
  obtain ⟨best, hb, hk, hst, hu⟩ := hin.best
  have htp := h.tp
  have hcs_of : ∀ {x y : Regs} {i : ℕ} {txt : List Byte}, useOf i ≠ .comment → emitUse txt x (useOf i) = some y → y.cs = x.cs := by
    intro x y i txt hne hxy
    cases hui : useOf i with
    | token k => rw [hui] at hxy; simp only [emitUse, Option.some.injEq] at hxy; rw [← hxy]; rfl
    | tokenText k =>
      rw [hui] at hxy; simp only [emitUse, Regs.emitToken, Regs.emitText] at hxy
      split at hxy
      · split at hxy
        · simp only [Option.some.injEq] at hxy; rw [← hxy]
        · cases hxy
      · cases hxy
    | quoted k =>
      rw [hui] at hxy; simp only [emitUse, Regs.emitString, Regs.emitText] at hxy
      split at hxy
      · split at hxy
        · simp only [Option.some.injEq] at hxy; rw [← hxy]
        · cases hxy
      · cases hxy
    | skip => rw [hui] at hxy; simp only [emitUse, Option.some.injEq] at hxy; rw [← hxy]
    | comment => exact absurd hui hne
  cases e with
  | go => cases he
  | shut => cases he
  | bad => cases he
  | back u =>
    unfold okBack at he
    cases hkn : known m.cs with
    | none => rw [hkn] at he; cases he
    | some i =>
      rw [hkn] at he
      simp only [decide_eq_true_eq] at he
      subst he
      obtain ⟨k1, k2, k3⟩ := known_table _ hin.mem i hkn
      have hbest := hk i hkn
      subst hbest
      have hlong := longest_of_best hn hb hmore
      obtain ⟨u1, u2, u3⟩ := use_table i
      have hem := emitUse_eq (m' := { m with ts := some (t : ℤ), cs := 10, te := m.p, p := m.p - 1 }) h rfl h.tn htp
        (longest_pos hlong) k1 (fun k hk => absurd hk (k2 k)) u2 u3
      refine ⟨_, hem, rfl, fun hr => finish h hlong k1 (m' := { m with ts := some (t : ℤ), cs := 10, te := m.p, p := m.p - 1 })
        rfl h.tn ?_ rfl hin.line hin.toks htp (fun k hk => absurd hk (k2 k)) hem hr⟩
      show m.p - 1 + 1 = _
      rw [h.tn]; ring
  | rewind =>
    simp only [okBack, Bool.and_eq_true] at he
    obtain ⟨l, hte, hbest, hnl, _⟩ := hst he.1
    rw [if_pos he.2] at hbest
    subst hbest
    have hlong := longest_of_best hn hb hmore
    have hln : l ≤ n := hb.1
    have hem := emitUse_eq (m' := { m with ts := some (t : ℤ), cs := 10, p := m.te - 1 }) (i := 10) h rfl hte (by omega)
        (longest_pos hlong) (by decide) (fun k hk => by simp [useOf, patterns] at hk) (use_table 10).2.1 (use_table 10).2.2
    refine ⟨_, hem, rfl, fun hr => finish h hlong (by decide) (m' := { m with ts := some (t : ℤ), cs := 10, p := m.te - 1 })
      rfl hte ?_ rfl ?_ hin.toks (by omega) (fun k hk => by simp [useOf, patterns] at hk) hem hr⟩
    · show m.te - 1 + 1 = _
      rw [hte]; ring
    · show m.line = _
      rw [hin.line, hnl]
  | last =>
    simp only [okBack, Bool.and_eq_true, Bool.not_eq_true'] at he
    obtain ⟨l, hte, hbest, hnl, hact⟩ := hst he.1
    rw [if_neg (by simp [he.2])] at hbest
    subst hbest
    have hact := hact he.2
    obtain ⟨a1, a2, a3⟩ := act_table _ hact
    have hlong := longest_of_best hn hb hmore
    have hln : l ≤ n := hb.1
    obtain ⟨u1, u2, u3⟩ := use_table (m.act - 1)
    have hem := emitUse_eq (m' := { m with ts := some (t : ℤ), cs := 10, p := m.te - 1 }) (i := m.act - 1) h rfl hte (by omega)
        (longest_pos hlong) a1 (fun k hk => absurd hk (a2 k)) u2 u3
    have hem' := hem
    rw [← lastMatch_eq c.txt { m with ts := some (t : ℤ), cs := 10 } hact] at hem'
    refine ⟨_, hem', rfl, fun hr => finish h hlong a1 (m' := { m with ts := some (t : ℤ), cs := 10, p := m.te - 1 })
      rfl hte ?_ rfl ?_ hin.toks (by omega) (fun k hk => absurd hk (a2 k)) hem hr⟩
    · show m.te - 1 + 1 = _
      rw [hte]; ring
    · show m.line = _
      rw [hin.line, hnl]

/-- The end of the input inside a token. -/
theorem tok_eof {B : ℕ} {c : Conf} {m : Regs} {s : List Byte} {t n L : ℕ} {K : List Tok} (hs0 : s ≠ []) (h : Holds B c m s t n)
    (hin : InTok s L K m t n) (hn : n = s.length) (he : c.eof = true) (hp : t + n = c.txt.length) : TokenResult B c s L K := by
  obtain ⟨l43, l0, l8⟩ := states_lt _ hin.mem
  have hmore : ∀ j k, n < k → k ≤ s.length → ¬ PatMatches j (s.take k) := by
    intro j k h1 h2; omega
  have hnpos : n ≠ 0 := by
    intro h0; rw [h0] at hn; exact hs0 (List.eq_nil_of_length_eq_zero hn.symm)
  have hok := okEof_of hin.mem
  unfold okEof at hok
  by_cases hz : at' eofTrans m.cs = 0
  · rw [if_pos hz] at hok
    obtain ⟨best, hb, hk, hst, hu⟩ := hin.best
    have hbn := hu hok
    subst hbn
    rcases hin.quote hok with h0 | ⟨b, s', hs, hq⟩
    · exact absurd h0 hnpos
    · refine Or.inr (Or.inr (Or.inl ⟨none_of_best hb hmore, b, s', hs, hq, ?_⟩))
      rw [← hin.toks]
      exact ends_eof h hp he hz l0
  · rw [if_neg hz] at hok
    simp only [Bool.and_eq_true] at hok
    have ht75 : at' eofTrans m.cs - 1 < 75 := by
      have := hok.1; rw [Nat.blt_eq] at this; exact this
    have hback : okBack m.cs (eff (at' eofTrans m.cs - 1)) = true := hok.2
    obtain ⟨m', ha, hcs, hfin⟩ := finish_back h hin (le_of_eq hn) hmore _ hback
    have hts : { m with ts := some (t : ℤ) } = m := by
      rcases hin.ts with ⟨h1, _, _⟩ | ⟨_, h2, _⟩
      · rw [← h1]
      · exact absurd h2 hnpos
    rw [hts] at ha
    exact hfin (reach_eof h hp he hz ht75 ha (by omega) (by omega))

/-- One character inside a token. -/
theorem tok_char {B : ℕ} {c : Conf} {m : Regs} {s : List Byte} {t n L : ℕ} {K : List Tok} (h : Holds B c m s t n)
    (hin : InTok s L K m t n) (hn : n < s.length) (hp : t + n < c.txt.length) :
    (∃ c' m', Reach B c c' ∧ Holds B c' m' s t (n + 1) ∧ InTok s L K m' t (n + 1)) ∨
    (TokenResult B c s L K ∧ ¬ Extendable (s.take (n + 1))) := by
  obtain ⟨l43, l0, l8⟩ := states_lt _ hin.mem
  obtain ⟨b, hb⟩ : ∃ b, s[n]? = some b := ⟨s[n], List.getElem?_eq_getElem hn⟩
  have hok := okTrans_of hin.mem b
  have hfrom := fromState_tok hin h.tn
  have hvec : vecOf (s.take (n + 1)) = strip (dv b (resid m.cs)) := by
    rw [List.take_add_one, hb, Option.toList_some, vecOf_append, hin.vec]
  have hnl := newlines_take_succ hb
  obtain ⟨best, hbest, hk, hst, hu⟩ := hin.best
  unfold okTrans at hok
  simp only [Bool.and_eq_true] at hok
  obtain ⟨ht, hok⟩ := hok
  rw [Nat.blt_eq] at ht
  have hstep : ∀ m', applyEff c.txt { m with ts := some (t : ℤ) } (eff (findTrans m.cs (code b))) = some m' → m'.cs < 43 → _ :=
    fun m' ha hcs' => reach_char h hp hb l0 l43 ht (hfrom ▸ ha) hcs'
  have hdone : ∀ k, dv b (resid m.cs) = [] → n < k → k ≤ s.length → ∀ j, ¬ PatMatches j (s.take k) := by
    intro k hv h1 h2 j
    rcases Nat.lt_or_ge (n + 1) k with h3 | h3
    · exact no_longer (by rw [hvec, hv]; rfl) rfl h3 h2
    · obtain rfl : k = n + 1 := by omega
      rw [List.take_add_one, hb, Option.toList_some]
      intro hm
      obtain ⟨r, hr, _⟩ := (patMatches_snoc _ _ _).1 hm
      rw [hin.vec, hv] at hr
      simp at hr
  have hqt := okQuote_of b
  unfold okQuote at hqt
  cases heff : eff (findTrans m.cs (code b)) with
  | go cs' nl mark act =>
    rw [heff] at hok
    simp only [Bool.and_eq_true, decide_eq_true_eq, beq_iff_eq, bne_iff_ne, ne_eq] at hok
    obtain ⟨⟨⟨⟨hmem, h10⟩, hstrip⟩, hnl'⟩, hrest⟩ := hok
    have hmem' : cs' ∈ states := by simpa using hmem
    obtain ⟨q43, q0, q8⟩ := states_lt _ hmem'
    obtain ⟨m1, hm1⟩ : ∃ m1 : Regs, m1 = ⟨cs', act.getD m.act, m.line + nl.toNat, some (t : ℤ),
      if mark then m.p + 1 else m.te, m.p, m.toks⟩ := ⟨_, rfl⟩
    have hm1cs : m1.cs = cs' := by rw [hm1]
    have hr := (hstep m1 (by rw [heff, hm1]; rfl) (by rw [hm1cs]; exact q43)).1 (by rw [hm1cs]; exact q0)
    rw [toState_eq m1 (by rw [hm1cs]; exact q43), if_neg (by rw [hm1cs]; omega)] at hr
    subst hm1
    left
    refine ⟨_, _, hr, ⟨rfl, ?_, ?_, h.text, h.eof, h.full, h.cap⟩, ?_⟩
    · show m.p + 1 = _
      rw [h.tn]; push_cast; ring
    · show t + (n + 1) ≤ c.txt.length
      omega
    · have hun : unmatched cs' = true → unmatched m.cs = true ∧ firstNull (dv b (resid m.cs)) = none := by
        intro hun
        obtain ⟨u1, u2⟩ := unmatched_table _ hmem' hun
        cases hf : firstNull (dv b (resid m.cs)) with
        | some i =>
          rw [hf] at hrest
          simp [u1, u2] at hrest
        | none =>
          rw [hf] at hrest
          simp [u1, u2] at hrest
          refine ⟨?_, rfl⟩
          rcases hrest with hrest | hrest
          · exact hrest.2.1
          · exact hrest.1.2
      refine ⟨hmem', Or.inl ⟨rfl, Nat.succ_pos n, h10⟩, by rw [hvec, hstrip], ?_, ?_, ?_, hin.toks⟩
      · cases hf : firstNull (dv b (resid m.cs)) with
        | some i =>
          rw [hf] at hrest
          simp only [Bool.and_eq_true, Bool.or_eq_true, beq_iff_eq, Bool.not_eq_true'] at hrest
          obtain ⟨⟨⟨r1, r2⟩, r3⟩, r4⟩ := hrest
          refine ⟨some (i, n + 1), isBest_hit hb (by rw [hin.vec, hf]), ?_, ?_, ?_⟩
          · intro j hj
            rcases r2 with r2 | r2
            · rw [r2] at hj; cases hj
            · rw [r2] at hj; rw [Option.some.inj hj]
          · intro hs
            rcases r3 with r3 | ⟨rm, r3⟩
            · rw [r3] at hs; cases hs
            · refine ⟨n + 1, ?_, ?_, rfl, ?_⟩
              · show (if mark = true then m.p + 1 else m.te) = _
                rw [if_pos rm, h.tn]; push_cast; ring
              · show some (i, n + 1) = some (if slash cs' = true then 10 else act.getD m.act - 1, n + 1)
                by_cases hsl : slash cs' = true
                · rw [if_pos hsl] at r3 ⊢
                  rw [beq_iff_eq] at r3
                  rw [r3]
                · rw [if_neg hsl] at r3 ⊢
                  simp only [Bool.and_eq_true, beq_iff_eq] at r3
                  rw [r3.1]; rfl
              · intro hsl
                show act.getD m.act ∈ acts
                rw [hsl, if_neg (by simp)] at r3
                simp only [Bool.and_eq_true, beq_iff_eq] at r3
                rw [r3.1]
                simpa using r3.2
          · intro hun'
            have := (hun hun').2
            rw [hf] at this; cases this
        | none =>
          rw [hf] at hrest
          refine ⟨best, isBest_miss hb (by rw [hin.vec, hf]) hbest, ?_, ?_, ?_⟩
          · intro j hj
            simp only [Bool.or_eq_true, Bool.and_eq_true, beq_iff_eq] at hrest
            have : known cs' = none := by
              rcases hrest with hrest | hrest
              · exact hrest.1.1.1.1
              · exact hrest.1.1.1.1
            rw [this] at hj; cases hj
          · intro hs
            have hnu : unmatched cs' = false := by
              cases hx : unmatched cs' with
              | false => rfl
              | true => rw [(unmatched_table _ hmem' hx).2] at hs; cases hs
            rw [hs, hnu] at hrest
            simp only [Bool.or_eq_true, Bool.and_eq_true, beq_iff_eq, Bool.not_eq_true', bne_iff_ne, if_true,
              Bool.and_false, Bool.false_eq_true, or_false] at hrest
            obtain ⟨⟨⟨⟨_, hmark⟩, hact⟩, hb10⟩, hs', hsl⟩ := hrest
            obtain ⟨l, g1, g2, g3, g4⟩ := hst hs'
            refine ⟨l, ?_, ?_, ?_, ?_⟩
            · show (if mark = true then m.p + 1 else m.te) = _
              rw [hmark, if_neg (by simp)]; exact g1
            · show best = some (if slash cs' = true then 10 else act.getD m.act - 1, l)
              rw [hact, hsl]; exact g2
            · rw [hnl, g3]
              have : (b.val == 10) = false := by simpa using hb10
              rw [this]; rfl
            · intro hx
              show act.getD m.act ∈ acts
              rw [hact]; exact g4 (hsl ▸ hx)
          · intro hun'
            exact hu (hun hun').1
      · intro hun'
        right
        rcases hin.ts with ⟨_, hpos, _⟩ | ⟨_, hn0, hc10⟩
        · rcases hin.quote (hun hun').1 with h0 | hq
          · omega
          · exact hq
        · subst hn0
          rw [← hc10, heff] at hqt
          have hun2 : unmatched cs' = true := hun'
          simp only [hun2, if_true, Bool.or_eq_true, beq_iff_eq] at hqt
          cases s with
          | nil => simp at hn
          | cons a s' =>
            simp only [List.getElem?_cons_zero, Option.some.injEq] at hb
            subst hb
            exact ⟨a, s', rfl, hqt.imp (fun h => Fin.ext h) (fun h => Fin.ext h)⟩
      · show m.line + nl.toNat = _
        rw [hin.line, hnl, hnl']; ring
  | shut nl u =>
    rw [heff] at hok
    simp only [Bool.and_eq_true, decide_eq_true_eq, beq_iff_eq] at hok
    obtain ⟨⟨hstrip, hnl'⟩, hrest⟩ := hok
    cases hf : firstNull (dv b (resid m.cs)) with
    | none => rw [hf] at hrest; cases hrest
    | some i =>
      rw [hf] at hrest
      simp only [decide_eq_true_eq] at hrest
      subst hrest
      refine Or.inr ⟨?_, not_extendable (by rw [hvec, hstrip])⟩
      have hb' := isBest_hit hb (by rw [hin.vec, hf])
      have hlong := longest_of_best (by omega : n + 1 ≤ s.length) hb'
        (fun j k h1 h2 => no_longer (by rw [hvec, hstrip]) rfl h1 h2)
      have hte : m.p + 1 = (t : ℤ) + ((n + 1 : ℕ) : ℤ) := by rw [h.tn]; push_cast; ring
      have hline : m.line + nl.toNat = L + newlines (s.take (n + 1)) := by rw [hin.line, hnl, hnl']; ring
      by_cases hcomm : useOf i = .comment
      · have hr := (hstep _ (by rw [heff, hcomm]; rfl) (by simp)).1 (by simp)
        refine Or.inr (Or.inl ⟨i, n + 1, hlong, hcomm, _, hr, _, t + (n + 1), holds_after h (by omega) hte, ?_, ?_, ?_, ?_⟩)
        · rw [toState_eq _ (by simp), if_pos (by simp)]
        · rw [toState_eq _ (by simp), if_pos (by simp)]
        · rw [toState_eq _ (by simp), if_pos (by simp)]
          exact hline
        · rw [toState_eq _ (by simp), if_pos (by simp)]
          exact hin.toks
      · have hquote : ∀ k, useOf i = .quoted k → 2 ≤ n + 1 := by
          intro k hk
          rcases hin.ts with ⟨_, hpos, _⟩ | ⟨_, hn0, hc10⟩
          · omega
          · rw [← hc10, heff, hk] at hqt
            cases hqt
        obtain ⟨u1, u2, u3⟩ := use_table i
        have hem := emitUse_eq (m' := { m with ts := some (t : ℤ), cs := 10, line := m.line + nl.toNat, te := m.p + 1 }) h rfl
          hte (by omega) (Nat.succ_pos n) hcomm (fun k hk => ⟨u1 k hk, hquote k hk⟩) u2 u3
        exact finish h hlong hcomm (m' := { m with ts := some (t : ℤ), cs := 10, line := m.line + nl.toNat, te := m.p + 1 })
          rfl hte hte rfl hline hin.toks (by omega) hquote hem ((hstep _ (by rw [heff]; exact hem) (by simp)).1 (by simp))
  | back u =>
    rw [heff] at hok
    simp only [Bool.and_eq_true, decide_eq_true_eq] at hok
    refine Or.inr ⟨?_, not_extendable (by rw [hvec, hok.1]; rfl)⟩
    obtain ⟨m', ha, hcs, hfin⟩ := finish_back h hin (le_of_lt hn) (fun j k h1 h2 => hdone k hok.1 h1 h2 j) (.back u) hok.2
    exact hfin ((hstep m' (by rw [heff]; exact ha) (by omega)).1 (by omega))
  | rewind =>
    rw [heff] at hok
    simp only [Bool.and_eq_true, decide_eq_true_eq] at hok
    refine Or.inr ⟨?_, not_extendable (by rw [hvec, hok.1.1]; rfl)⟩
    obtain ⟨m', ha, hcs, hfin⟩ := finish_back h hin (le_of_lt hn) (fun j k h1 h2 => hdone k hok.1.1 h1 h2 j) .rewind
      (by simp [okBack, hok.1.2, hok.2])
    exact hfin ((hstep m' (by rw [heff]; exact ha) (by omega)).1 (by omega))
  | last =>
    rw [heff] at hok
    simp only [Bool.and_eq_true, decide_eq_true_eq] at hok
    refine Or.inr ⟨?_, not_extendable (by rw [hvec, hok.1.1]; rfl)⟩
    obtain ⟨m', ha, hcs, hfin⟩ := finish_back h hin (le_of_lt hn) (fun j k h1 h2 => hdone k hok.1.1 h1 h2 j) .last
      (by simp only [okBack, Bool.and_eq_true]; exact ⟨hok.1.2, hok.2⟩)
    exact hfin ((hstep m' (by rw [heff]; exact ha) (by omega)).1 (by omega))
  | bad =>
    rw [heff] at hok
    simp only [Bool.and_eq_true, decide_eq_true_eq, beq_iff_eq] at hok
    obtain ⟨hv, h10⟩ := hok
    refine Or.inr ⟨?_, not_extendable (by rw [hvec, hv]; rfl)⟩
    have hn0 : n = 0 := by
      rcases hin.ts with ⟨_, _, h3⟩ | ⟨_, h2, _⟩
      · exact absurd h10 h3
      · exact h2
    subst hn0
    have hbn : best = none := hu (by rw [h10]; rfl)
    subst hbn
    rw [h10] at heff
    rw [heff] at hqt
    simp only [Bool.and_eq_true, bne_iff_ne] at hqt
    cases s with
    | nil => simp at hn
    | cons a s' =>
      simp only [List.getElem?_cons_zero, Option.some.injEq] at hb
      subst hb
      refine Or.inr (Or.inr (Or.inr ⟨none_of_best hbest (fun j k h1 h2 => hdone k hv h1 h2 j), a, s', rfl, ?_, ?_, ?_⟩))
      · intro hx; rw [hx] at hqt; exact hqt.1 rfl
      · intro hx; rw [hx] at hqt; exact hqt.2 rfl
      · have hr := (hstep { m with ts := some (t : ℤ), cs := 0 } (by rw [h10, heff]; rfl) (by simp)).2 rfl
        refine hr.ends (Ends.tick (by intro c' hc; cases hc) ?_)
        have hl := hin.line
        simp only [List.take_zero, newlines, List.count_nil, Nat.add_zero] at hl
        unfold tick
        simp only
        rw [if_pos (show (0 : ℕ) = deckError from rfl), hl, hin.toks]

/-- A token runs to its end. -/
theorem token_run (B : ℕ) (s : List Byte) (L : ℕ) (K : List Tok) (hs0 : s ≠ [])
    (hfit : ∀ n, n ≤ s.length → Extendable (s.take n) → n < B) :
    ∀ (k : ℕ) (c : Conf) (m : Regs) (t n : ℕ), s.length - n = k → n ≤ s.length → Holds B c m s t n → InTok s L K m t n →
      TokenResult B c s L K := by
  intro k
  induction k with
  | zero =>
    intro c m t n hk hn h hin
    have hB := hfit n hn (extendable_of hin.mem hin.vec)
    obtain ⟨c', m', t', hr, h', hsame, hcase⟩ := fetch h (states_lt _ hin.mem).2.1 (hin.ts.imp (fun x => x.1) (fun x => ⟨x.1, x.2.1⟩)) hB
    rcases hcase with ⟨_, h2⟩ | ⟨h1, h2, h3⟩
    · omega
    · exact (tok_eof hs0 h' (hin.same hsame) h3 h1 h2).of_reach hr
  | succ k ih =>
    intro c m t n hk hn h hin
    have hB := hfit n hn (extendable_of hin.mem hin.vec)
    obtain ⟨c', m', t', hr, h', hsame, hcase⟩ := fetch h (states_lt _ hin.mem).2.1 (hin.ts.imp (fun x => x.1) (fun x => ⟨x.1, x.2.1⟩)) hB
    rcases hcase with ⟨h1, h2⟩ | ⟨h1, h2, h3⟩
    · rcases tok_char h' (hin.same hsame) h2 h1 with ⟨c2, m2, hr2, hh2, hin2⟩ | ⟨hres, _⟩
      · exact (ih c2 m2 t' (n + 1) (by omega) (by omega) hh2 hin2).of_reach (hr.trans hr2)
      · exact hres.of_reach hr
    · exact (tok_eof hs0 h' (hin.same hsame) h3 h1 h2).of_reach hr

end Schnek.Lemma.Scanner
