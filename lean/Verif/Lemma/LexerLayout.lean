import Verif.Props.Scanner

/-!
# Blanks and comments between tokens
-/

namespace Schnek.Lemma.Scanner

open Schnek.Scanner Schnek.Spec.Lexer Schnek.Lemma.Lexer Schnek.Props

/-! ## what the machine does after a match -/

theorem matched_table : ∀ cs ∈ states, ((known cs).isSome = true ∨ stored cs = true) → unmatched cs = false := by decide

/-- After a match there is no way back into a string. -/
theorem step_state {cs : ℕ} (h : cs ∈ states) (b : Byte) : strip (dv b (resid cs)) = [] ∨
    ∃ cs' ∈ states, strip (dv b (resid cs)) = resid cs' ∧
      ((firstNull (dv b (resid cs)) ≠ none ∨ unmatched cs = false) → unmatched cs' = false) := by
  have hok := okTrans_of h b
  unfold okTrans at hok
  simp only [Bool.and_eq_true] at hok
  obtain ⟨-, hok⟩ := hok
  revert hok
  rcases eff (findTrans cs (code b)) with ⟨cs', nl, mark, act⟩ | ⟨nl, u⟩ | u | _ | _ | _ <;> intro hok
  · simp only [Bool.and_eq_true, List.contains_iff_mem, decide_eq_true_eq, bne_iff_ne] at hok
    obtain ⟨⟨⟨⟨h1, h2⟩, h3⟩, h4⟩, h5⟩ := hok
    refine .inr ⟨cs', h1, h3, ?_⟩
    revert h5
    rcases firstNull (dv b (resid cs)) with _ | i <;> intro h5 h6
    · simp only [ne_eq, not_true_eq_false, false_or] at h6
      rw [h6] at h5
      simp only [Bool.false_and, Bool.and_false, Bool.or_false] at h5
      refine matched_table cs' h1 (.inr ?_)
      by_contra hs
      rw [Bool.not_eq_true] at hs
      simp [hs] at h5
    · simp only [Bool.and_eq_true, Bool.or_eq_true] at h5
      exact matched_table cs' h1 h5.1.1.1
  · simp only [Bool.and_eq_true, decide_eq_true_eq] at hok
    exact .inl hok.1.1
  all_goals
    simp only [Bool.and_eq_true, decide_eq_true_eq] at hok
    left
    rw [show dv b (resid cs) = [] by first | exact hok.1 | exact hok.1.1]
    rfl

theorem vecOf_state (w : List Byte) : vecOf w = [] ∨ ∃ cs ∈ states, vecOf w = resid cs := by
  induction w using List.reverseRecOn with
  | nil => exact .inr ⟨10, by decide, rfl⟩
  | append_singleton w b ih =>
    rw [vecOf_append]
    rcases ih with h | ⟨cs, hcs, h⟩
    · rw [h]
      exact .inl rfl
    · rw [h]
      rcases step_state hcs b with h1 | ⟨cs', h1, h2, -⟩
      · exact .inl h1
      · exact .inr ⟨cs', h1, h2⟩

/-- a state after a match -/
def Matched (v : Vec) : Prop := v = [] ∨ ∃ cs ∈ states, v = resid cs ∧ unmatched cs = false

theorem matched_of {i : ℕ} {w : List Byte} (h : PatMatches i w) : Matched (vecOf w) := by
  rcases List.eq_nil_or_concat w with rfl | ⟨w, b, rfl⟩
  · exact absurd h (not_patMatches_nil i)
  · rw [List.concat_eq_append] at *
    rw [vecOf_append]
    rcases vecOf_state w with h1 | ⟨cs, hcs, h1⟩
    · rw [h1]
      exact .inl rfl
    · obtain ⟨r, hr, hn⟩ := (patMatches_snoc _ _ _).1 h
      rw [h1] at hr ⊢
      rcases step_state hcs b with h2 | ⟨cs', h2, h3, h4⟩
      · exact .inl h2
      · refine .inr ⟨cs', h2, h3, h4 (.inl ?_)⟩
        intro hnone
        exact firstNull_none hnone i r hr hn

theorem matched_append {w : List Byte} (h : Matched (vecOf w)) (u : List Byte) : Matched (vecOf (w ++ u)) := by
  induction u using List.reverseRecOn with
  | nil => rwa [List.append_nil]
  | append_singleton u b ih =>
    rw [← List.append_assoc, vecOf_append]
    rcases ih with h1 | ⟨cs, hcs, h1, h2⟩
    · rw [h1]
      exact .inl rfl
    · rw [h1]
      rcases step_state hcs b with h3 | ⟨cs', h3, h4, h5⟩
      · exact .inl h3
      · exact .inr ⟨cs', h3, h4, h5 (.inr h2)⟩

theorem blank_table : ∀ cs ∈ states, unmatched cs = false → cs ≠ 7 → ∀ b : Byte, blank b = true → dv b (resid cs) = [] := by
  decide +kernel

theorem resid7 : resid 7 = [(23, .cat (.star (.cls [(0, 9), (11, 255)])) (.cls [(10, 10)]))] := by decide +kernel

theorem newline_table : ∀ cs ∈ states, strip (dv 10 (resid cs)) ≠ resid 7 := by decide +kernel

theorem not_newline : ∀ b : Byte, inRanges b [(0, 9), (11, 255)] = true ↔ b ≠ 10 := by decide +kernel

theorem is_newline : ∀ b : Byte, inRanges b [(10, 10)] = true ↔ b = 10 := by decide +kernel

theorem matches_star_cls {l : List (ℕ × ℕ)} {w : List Byte} : Matches (.star (.cls l)) w ↔ ∀ b ∈ w, inRanges b l = true := by
  constructor
  · intro h
    generalize hr : RE.star (.cls l) = r at h
    induction h with
    | starNil => simp
    | starCons h1 h2 ih1 ih2 =>
      cases hr
      obtain ⟨b, rfl, hb⟩ := matches_cls.1 h1
      intro c hc
      rcases List.mem_append.1 hc with hc | hc
      · rw [List.mem_singleton.1 hc]
        exact hb
      · exact ih2 rfl c hc
    | _ => cases hr
  · intro h
    induction w with
    | nil => exact .starNil
    | cons b w ih =>
      exact .starCons (v := [b]) (.cls (h b (by simp))) (ih fun c hc => h c (by simp [hc]))

theorem matches_rest {y : List Byte} :
    Matches (.cat (.star (.cls [(0, 9), (11, 255)])) (.cls [(10, 10)])) y ↔ ∃ y1, y = y1 ++ [10] ∧ ∀ b ∈ y1, b ≠ 10 := by
  rw [matches_cat]
  constructor
  · rintro ⟨y1, y2, rfl, h1, h2⟩
    obtain ⟨b, rfl, hb⟩ := matches_cls.1 h2
    rw [(is_newline b).1 hb]
    exact ⟨y1, rfl, fun b hb => (not_newline b).1 (matches_star_cls.1 h1 b hb)⟩
  · rintro ⟨y1, rfl, h⟩
    exact ⟨y1, [10], rfl, matches_star_cls.2 fun b hb => (not_newline b).2 (h b hb), .cls (by decide)⟩

theorem split_newline {v : List Byte} (h : (10 : Byte) ∈ v) : ∃ y r, v = y ++ 10 :: r ∧ ∀ b ∈ y, b ≠ 10 := by
  induction v with
  | nil => cases h
  | cons a v ih =>
    by_cases ha : a = 10
    · exact ⟨[], v, by rw [ha]; rfl, by simp⟩
    · rcases List.mem_cons.1 h with h | h
      · exact absurd h.symm ha
      · obtain ⟨y, r, rfl, hy⟩ := ih h
        refine ⟨a :: y, r, rfl, ?_⟩
        intro b hb
        rcases List.mem_cons.1 hb with rfl | hb
        · exact ha
        · exact hy b hb

/-- A blank between tokens does not change the tokens before it. -/
theorem longest_insert {w u v X : List Byte} {b : Byte} {i : ℕ} (hl : Longest (w ++ (u ++ v)) i w.length) (hb : blank b = true)
    (hnl : (10 : Byte) ∉ b :: X ∨ (w ++ (u ++ v)).getLast? = some 10) : Longest (w ++ (u ++ b :: X ++ v)) i w.length := by
  have htake : ∀ z : List Byte, (w ++ z).take w.length = w := fun z => List.take_left
  have hw : PatMatches i w := by
    have := hl.here
    rwa [htake] at this
  refine ⟨by simp, by rw [htake]; exact hw, ?_, ?_⟩
  · intro j k hk hm
    by_cases hk1 : k ≤ (w ++ u).length
    · refine hl.longest j k (by simp only [List.length_append] at hk1 ⊢; omega) ?_
      have e1 : (w ++ (u ++ b :: X ++ v)).take k = (w ++ u).take k := by
        rw [show w ++ (u ++ b :: X ++ v) = (w ++ u) ++ (b :: X ++ v) by simp, List.take_append_of_le_length hk1]
      have e2 : (w ++ (u ++ v)).take k = (w ++ u).take k := by
        rw [show w ++ (u ++ v) = (w ++ u) ++ v by simp, List.take_append_of_le_length hk1]
      rw [e2, ← e1]
      exact hm
    · exfalso
      obtain ⟨z, hz⟩ : ∃ z, (w ++ (u ++ b :: X ++ v)).take k = (w ++ u) ++ b :: z := by
        rw [show w ++ (u ++ b :: X ++ v) = (w ++ u) ++ (b :: X ++ v) by simp, List.take_append]
        obtain ⟨m, hm⟩ : ∃ m, k - (w ++ u).length = m + 1 := ⟨k - (w ++ u).length - 1, by omega⟩
        rw [hm, List.take_of_length_le (by omega), List.cons_append, List.take_succ_cons]
        exact ⟨_, rfl⟩
      have hpre : b :: z <+: b :: X ++ v := by
        have : (w ++ u) ++ b :: z <+: (w ++ u) ++ (b :: X ++ v) := by
          rw [← hz, show w ++ (u ++ b :: X ++ v) = (w ++ u) ++ (b :: X ++ v) by simp]
          exact List.take_prefix _ _
        exact (List.prefix_append_right_inj _).1 this
      rw [hz] at hm
      obtain ⟨r, hr, hmr⟩ := (patMatches_append _ _ _ (by simp)).1 hm
      rcases matched_append (matched_of hw) u with h1 | ⟨cs, hcs, h1, h2⟩
      · rw [h1] at hr
        cases hr
      · by_cases h7 : cs = 7
        · subst h7
          -- a line break after `//` would have been found without the blank as well
          have hno : (10 : Byte) ∉ v := by
            intro h10
            obtain ⟨y, r2, rfl, hy⟩ := split_newline h10
            have hm2 : PatMatches 23 (w ++ u ++ (y ++ [10])) := by
              refine (patMatches_append _ _ _ (by simp)).2 ⟨_, by rw [h1, resid7]; exact List.mem_singleton.2 rfl, ?_⟩
              exact matches_rest.2 ⟨y, rfl, hy⟩
            have := hl.longest 23 (w ++ u ++ (y ++ [10])).length (by simp) (by
              rw [show w ++ (u ++ (y ++ 10 :: r2)) = (w ++ u ++ (y ++ [10])) ++ r2 by simp, List.take_left]
              exact hm2)
            simp at this
          rw [h1, resid7, List.mem_singleton, Prod.mk.injEq] at hr
          obtain ⟨-, rfl⟩ := hr
          obtain ⟨y1, hy1, -⟩ := matches_rest.1 hmr
          have h10 : (10 : Byte) ∈ b :: X ++ v := hpre.subset (by rw [hy1]; simp)
          rcases hnl with hnl | hnl
          · rcases List.mem_append.1 h10 with h | h
            · exact hnl h
            · exact hno h
          · rcases List.eq_nil_or_concat v with rfl | ⟨v', c, rfl⟩
            · rw [List.append_nil] at hnl
              obtain ⟨t, ht⟩ := List.getLast?_eq_some_iff.1 hnl
              rw [ht, vecOf_append] at h1
              rcases vecOf_state t with h3 | ⟨cs, hcs', h3⟩
              · rw [h3, resid7] at h1
                cases h1
              · rw [h3] at h1
                exact newline_table cs hcs' h1
            · rw [List.concat_eq_append] at *
              rw [← List.append_assoc, ← List.append_assoc, List.getLast?_append_of_ne_nil _ (by simp)] at hnl
              simp only [List.getLast?_singleton, Option.some.injEq] at hnl
              exact hno (by rw [hnl]; simp)
        · have := blank_table cs hcs h2 h7 b hb
          have hd : (j, deriv b r) ∈ dv b (resid cs) := by
            refine mem_dv.2 ⟨?_, r, h1 ▸ hr, rfl⟩
            intro he
            have hx := (matches_deriv b r z).2 hmr
            rw [he] at hx
            exact matches_empty hx
          rw [this] at hd
          cases hd
  · intro j hj
    rw [htake] at hj
    exact hl.first j (by rw [htake]; exact hj)

/-! ## layout -/

theorem longest_blank {b : Byte} (hb : blank b = true) (r : List Byte) : Longest (b :: r) 22 1 := by
  have h1 : ∀ b : Byte, blank b = true → firstNull (dv b (vecOf [])) = some 22 ∧ strip (dv b (vecOf [])) = [] := by decide +kernel
  obtain ⟨h2, h3⟩ := h1 b hb
  have hbest := isBest_hit (s := b :: r) (n := 0) (b := b) rfl (by simpa using h2)
  refine longest_of_best (by simp) hbest fun j k h4 h5 => no_longer (n := 1) (w := [b]) ?_ rfl h4 h5
  have := vecOf_append [] b
  rw [List.nil_append] at this
  rw [this, h3]

theorem lex_layout {X : List Byte} (hX : Layout X) (v : List Byte) (L : ℕ) (toks : List Tok) (e : Ending) :
    Lex (X ++ v) L toks e ↔ Lex v (L + newlines X) toks e := by
  induction hX generalizing L with
  | nil => rfl
  | @blank b X hb _ ih =>
    rw [List.cons_append, lex_token_iff (longest_blank hb _) (by decide)]
    have hu : useOf 22 = .skip := rfl
    simp only [hu, emitted, List.nil_append, List.take_succ_cons, List.take_zero, List.drop_succ_cons, List.drop_zero, exists_eq_left']
    rw [ih, newlines_cons b X, newlines_cons b []]
    have : newlines [] = 0 := rfl
    rw [this, Nat.zero_add, Nat.add_assoc, Nat.add_comm (newlines X)]
  | @block w X hw _ ih =>
    have := C85_block_comment_skipped w (X ++ v) hw L toks e
    rw [show 47 :: 42 :: (w ++ 42 :: 47 :: X) ++ v = bytes "/*" ++ w ++ bytes "*/" ++ (X ++ v) by simp [bytes], this, ih,
      newlines_cons, newlines_cons, newlines_append, newlines_cons, newlines_cons]
    have h1 : ((47 : Byte).val == 10).toNat = 0 := by decide
    have h2 : ((42 : Byte).val == 10).toNat = 0 := by decide
    rw [h1, h2]
    simp [Nat.add_assoc]
  | @line w X hw _ ih =>
    have := C85_line_comment_skipped_partial w (X ++ v) hw L toks e
    rw [show 47 :: 47 :: (w ++ 10 :: X) ++ v = bytes "//" ++ w ++ 10 :: (X ++ v) by simp [bytes], this, ih,
      newlines_cons, newlines_cons, newlines_append, newlines_cons]
    have h1 : ((47 : Byte).val == 10).toNat = 0 := by decide
    have h2 : ((10 : Byte).val == 10).toNat = 1 := by decide
    have h3 : newlines w = 0 := List.count_eq_zero.2 fun h => hw _ h rfl
    rw [h1, h2, h3]
    simp [Nat.add_assoc, Nat.add_comm]

/-- kinds and texts -/
def plainToks (toks : List Tok) : List (Kind × List Byte) := toks.map fun t => (t.kind, t.text)

theorem emitted_plain (L L' : ℕ) (w : List Byte) (u : Use) : plainToks (emitted L w u) = plainToks (emitted L' w u) := by
  cases u <;> rfl

/-- The line number of the beginning changes nothing but line numbers. -/
theorem lex_shift {s : List Byte} {L : ℕ} {toks : List Tok} {e : Ending} (h : Lex s L toks e) (L' : ℕ) :
    ∃ toks' e', Lex s L' toks' e' ∧ plainToks toks = plainToks toks' := by
  induction h generalizing L' with
  | nil => exact ⟨_, _, .nil, rfl⟩
  | @token s line i n toks e hl hu _ ih =>
    obtain ⟨toks', e', h1, h2⟩ := ih (L' + newlines (s.take n))
    refine ⟨_, e', .token hl hu h1, ?_⟩
    unfold plainToks at *
    rw [List.map_append, List.map_append, h2]
    congr 1
    exact emitted_plain _ _ _ _
  | comment hl hu ha _ ih =>
    obtain ⟨toks', e', h1, h2⟩ := ih _
    exact ⟨toks', e', .comment hl hu ha h1, h2⟩
  | openComment hl hu ha => exact ⟨_, _, .openComment hl hu ha, rfl⟩
  | openString h1 h2 => exact ⟨_, _, .openString h1 h2, rfl⟩
  | bad h1 h2 h3 => exact ⟨_, _, .bad h1 h2 h3, rfl⟩

theorem afterComment_split (s : List Byte) : ∀ r, afterComment s = some r → ∃ c, s = c ++ r ∧ ∀ r', afterComment (c ++ r') = some r' := by
  induction s with
  | nil => intro r h; cases h
  | cons a s ih =>
    intro r h
    cases s with
    | nil => cases h
    | cons b s =>
      rw [afterComment] at h
      by_cases hab : a = 42 ∧ b = 47
      · rw [if_pos hab] at h
        cases h
        exact ⟨[a, b], rfl, fun r' => by rw [List.cons_append, List.cons_append, List.nil_append, afterComment, if_pos hab]⟩
      · rw [if_neg hab] at h
        obtain ⟨c, h1, h2⟩ := ih r h
        cases c with
        | nil =>
          exfalso
          have := (Schnek.Lemma.Scanner.afterComment_suffix _ _ h).2
          rw [h1] at this
          simp at this
        | cons b' c =>
          simp only [List.cons_append, List.cons.injEq] at h1
          obtain ⟨rfl, rfl⟩ := h1
          refine ⟨a :: b :: c, rfl, fun r' => ?_⟩
          rw [List.cons_append, List.cons_append, afterComment, if_neg hab]
          exact h2 r'

theorem next_cases {s s1 : List Byte} (h : Next s s1) :
    (∃ w i, s = w ++ s1 ∧ Longest s i w.length ∧ useOf i ≠ .comment) ∨
      ∃ w c i, s = w ++ (c ++ s1) ∧ Longest s i w.length ∧ useOf i = .comment ∧ ∀ r', afterComment (c ++ r') = some r' := by
  cases h with
  | @token i n hl hu =>
    refine .inl ⟨s.take n, i, (List.take_append_drop _ _).symm, ?_, hu⟩
    rwa [List.length_take, Nat.min_eq_left hl.inside]
  | @comment i n _ hl hu ha =>
    obtain ⟨c, hc, h1⟩ := afterComment_split _ _ ha
    refine .inr ⟨s.take n, c, i, by rw [← hc, List.take_append_drop], ?_, hu, h1⟩
    rwa [List.length_take, Nat.min_eq_left hl.inside]

theorem begins_split {s v : List Byte} (h : Begins s v) : ∃ u, s = u ++ v := by
  induction h with
  | here => exact ⟨[], rfl⟩
  | later h1 _ ih =>
    obtain ⟨u, rfl⟩ := ih
    rcases next_cases h1 with ⟨w, i, rfl, -⟩ | ⟨w, c, i, rfl, -⟩
    · exact ⟨w ++ u, by simp⟩
    · exact ⟨w ++ (c ++ u), by simp⟩

theorem getLast_append_some {w z : List Byte} {P : Prop} (h : w ++ z ≠ [] → (P ∨ (w ++ z).getLast? = some 10)) :
    z ≠ [] → (P ∨ z.getLast? = some 10) := by
  intro hz
  have := h (by simp [hz])
  rwa [List.getLast?_append_of_ne_nil _ hz] at this

/-- Blanks and comments between tokens do not change the tokens. -/
theorem lex_insert {s v : List Byte} (h : Begins s v) {b : Byte} {X : List Byte} (hb : blank b = true) (hX : Layout X) :
    ∀ (u : List Byte), s = u ++ v → (s ≠ [] → ((10 : Byte) ∉ b :: X ∨ s.getLast? = some 10)) →
      ∀ (L : ℕ) (toks : List Tok) (e : Ending), Lex s L toks e →
        ∃ toks' e', Lex (u ++ b :: X ++ v) L toks' e' ∧ plainToks toks = plainToks toks' := by
  induction h with
  | @here s =>
    intro u hu _ L toks e hlex
    obtain rfl : u = [] := by simpa using hu.symm
    obtain ⟨toks', e', h1, h2⟩ := lex_shift hlex (L + newlines (b :: X))
    exact ⟨toks', e', (lex_layout (.blank hb hX) s L toks' e').2 h1, h2⟩
  | @later s s1 v hn hb1 ih =>
    intro u hu hnl L toks e hlex
    obtain ⟨u1, rfl⟩ := begins_split hb1
    rcases next_cases hn with ⟨w, i, rfl, hl, hm⟩ | ⟨w, c, i, rfl, hl, hm, ha⟩
    · obtain rfl : w ++ u1 = u := by
        rw [← List.append_assoc] at hu
        exact List.append_cancel_right hu
      have hne : w ++ (u1 ++ v) ≠ [] := by
        have := longest_pos hl
        intro h0
        rw [(List.append_eq_nil_iff.1 h0).1] at this
        simp at this
      obtain ⟨toks1, rfl, h1⟩ := (lex_token_iff hl hm).1 hlex
      rw [List.take_left, List.drop_left] at h1
      obtain ⟨toks', e', h2, h3⟩ := ih u1 rfl (getLast_append_some hnl) _ _ _ h1
      have hl2 := longest_insert hl hb (X := X) (hnl hne)
      refine ⟨emitted (L + newlines w) w (useOf i) ++ toks', e', ?_, ?_⟩
      · rw [show w ++ u1 ++ b :: X ++ v = w ++ (u1 ++ b :: X ++ v) by simp, lex_token_iff hl2 hm]
        rw [List.take_left, List.drop_left]
        exact ⟨toks', rfl, h2⟩
      · rw [List.take_left]
        unfold plainToks at *
        rw [List.map_append, List.map_append, h3]
    · obtain rfl : w ++ (c ++ u1) = u := by
        rw [← List.append_assoc c, ← List.append_assoc] at hu
        exact List.append_cancel_right hu
      have hne : w ++ (c ++ (u1 ++ v)) ≠ [] := by
        have := longest_pos hl
        intro h0
        rw [(List.append_eq_nil_iff.1 h0).1] at this
        simp at this
      have h1 := (lex_comment_iff hl hm (r := u1 ++ v) (by rw [List.drop_left]; exact ha _)).1 hlex
      obtain ⟨toks', e', h2, h3⟩ := ih u1 rfl (getLast_append_some (getLast_append_some hnl)) _ _ _ h1
      have hl2 : Longest (w ++ (c ++ u1 ++ b :: X ++ v)) i w.length :=
        longest_insert (u := c ++ u1) (by rw [List.append_assoc]; exact hl) hb (X := X)
          (by rw [List.append_assoc]; exact hnl hne)
      refine ⟨toks', e', ?_, h3⟩
      rw [show w ++ (c ++ u1) ++ b :: X ++ v = w ++ (c ++ u1 ++ b :: X ++ v) by simp,
        lex_comment_iff hl2 hm (r := u1 ++ b :: X ++ v) (by
          rw [List.drop_left, List.append_assoc, List.append_assoc]
          rw [← List.append_assoc u1]
          exact ha _)]
      have e1 : ∀ z, newlines (w ++ (c ++ z)) - newlines z = newlines w + newlines c := by
        intro z
        rw [newlines_append, newlines_append]
        omega
      rw [e1] at h2
      rw [show w ++ (c ++ u1 ++ b :: X ++ v) = w ++ (c ++ (u1 ++ b :: X ++ v)) by simp, e1]
      exact h2

end Schnek.Lemma.Scanner
