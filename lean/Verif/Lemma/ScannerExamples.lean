import Verif.Lemma.ScannerRun

/-! Families of inputs: comments, string literals, identifiers. -/

namespace Schnek.Lemma.Scanner

open Schnek.Scanner Schnek.Spec.Lexer Schnek.Lemma.Lexer

theorem fits_of_length {B : ℕ} {input : List Byte} (h : input.length < B) : Fits B input := by
  have hlen : ∀ {a s : List Byte}, Begins a s → s.length ≤ a.length := by
    intro a s hb
    induction hb with
    | here => exact le_refl _
    | later hn _ ih =>
      refine le_trans ih ?_
      cases hn with
      | token => rw [List.length_drop]; omega
      | comment h1 h2 h3 =>
        have := (afterComment_suffix _ _ h3).2
        rw [List.length_drop] at this; omega
  intro s hs n hn _
  have := hlen hs
  omega

/-- Every input can be read in one way. -/
theorem lex_total (input : List Byte) : ∃ toks e, Lex input 1 toks e ∧
    Ends (input.length + 1) (start (input.length + 1) input) (report e toks) := by
  obtain ⟨toks, e, h1, h2⟩ := scan_run (input.length + 1) input.length input _ 1 [] (le_refl _) (start_atStart _ _)
    (fits_of_length (Nat.lt_succ_self _))
  exact ⟨toks, e, h1, h2⟩

/-- A state the scanner stays in without a match. -/
theorem loop_state {w₀ : List Byte} {v : Vec} {p : Byte → Prop} (h0 : vecOf w₀ = v) (hloop : ∀ b, p b → strip (dv b v) = v)
    (hnull : ∀ b, p b → firstNull (dv b v) = none) (w : List Byte) (hw : ∀ b ∈ w, p b) :
    vecOf (w₀ ++ w) = v ∧ ∀ j k, w₀.length < k → k ≤ (w₀ ++ w).length → ¬ PatMatches j ((w₀ ++ w).take k) := by
  induction w using List.reverseRecOn with
  | nil =>
    rw [List.append_nil]
    exact ⟨h0, fun j k h1 h2 => by omega⟩
  | append_singleton w b ih =>
    obtain ⟨ih1, ih2⟩ := ih (fun b hb => hw b (by simp [hb]))
    have hb := hw b (by simp)
    constructor
    · rw [← List.append_assoc, vecOf_append, ih1, hloop b hb]
    · intro j k h1 h2
      simp only [List.length_append, List.length_singleton] at h2
      by_cases hk : k ≤ (w₀ ++ w).length
      · have := ih2 j k h1 hk
        rw [← List.append_assoc, List.take_append_of_le_length hk]
        exact this
      · have hk2 : k = ((w₀ ++ w) ++ [b]).length := by
          simp only [List.length_append, List.length_singleton] at hk ⊢; omega
        rw [← List.append_assoc, hk2, List.take_length]
        intro hm
        obtain ⟨r, hr, hn⟩ := (patMatches_snoc _ _ _).1 hm
        rw [ih1] at hr
        exact firstNull_none (hnull b hb) j r hr hn

theorem resid7_loop : ∀ b : Byte, b ≠ 10 → strip (dv b (resid 7)) = resid 7 := by decide +kernel
theorem resid7_null : ∀ b : Byte, b ≠ 10 → firstNull (dv b (resid 7)) = none := by decide +kernel

/-- A comment that ends with the input instead of a line break is a division. -/
theorem longest_open_line (w : List Byte) (hw : ∀ b ∈ w, b ≠ 10) : Longest (bytes "//" ++ w) 10 1 := by
  obtain ⟨_, h2⟩ := loop_state (w₀ := bytes "//") rfl resid7_loop resid7_null w hw
  have h47 : (bytes "//" ++ w)[0]? = some 47 := rfl
  have h47' : (bytes "//" ++ w)[1]? = some 47 := rfl
  have hb1 : IsBest (bytes "//" ++ w) 1 (some (10, 1)) := isBest_hit (n := 0) h47
    (by show firstNull (dv 47 (vecOf [])) = some 10; decide +kernel)
  have hb2 : IsBest (bytes "//" ++ w) 2 (some (10, 1)) := isBest_miss (n := 1) h47'
    (by show firstNull (dv 47 (vecOf [47])) = none; decide +kernel) hb1
  exact longest_of_best (by simp [bytes]) hb2 (fun j k h3 h4 => h2 j k h3 h4)

/-- A comment that ends with a line break. -/
theorem longest_line (w r : List Byte) (hw : ∀ b ∈ w, b ≠ 10) :
    Longest (bytes "//" ++ w ++ 10 :: r) 23 (w.length + 3) := by
  obtain ⟨h1, h2⟩ := loop_state (w₀ := bytes "//") rfl resid7_loop resid7_null w hw
  have hlen : (bytes "//" ++ w).length = w.length + 2 := by simp [bytes]
  have htake : (bytes "//" ++ w ++ 10 :: r).take (w.length + 2) = bytes "//" ++ w := by
    rw [← hlen, List.take_left]
  have hget : (bytes "//" ++ w ++ 10 :: r)[w.length + 2]? = some 10 := by
    rw [← hlen, List.getElem?_append_right (le_refl _)]; simp
  have hb := isBest_hit (s := bytes "//" ++ w ++ 10 :: r) (i := 23) hget (by rw [htake, h1]; decide +kernel)
  refine longest_of_best (by simp [bytes]) hb (fun j k h3 h4 => no_longer (n := w.length + 3) ?_ rfl h3 h4)
  rw [List.take_add_one, hget, htake, Option.toList_some, vecOf_append, h1]
  decide +kernel

theorem step_none {u : List Byte} {v : Vec} {b : Byte} (hu : vecOf u = v) (h : firstNull (dv b v) = none) (j : ℕ) :
    ¬ PatMatches j (u ++ [b]) := by
  intro hm
  obtain ⟨r, hr, hn⟩ := (patMatches_snoc _ _ _).1 hm
  rw [hu] at hr
  exact firstNull_none h j r hr hn

theorem body_run {q : Byte} {v v' : Vec} (hplain : ∀ b, b ≠ q → b ≠ 92 → strip (dv b v) = v ∧ firstNull (dv b v) = none)
    (hback : strip (dv 92 v) = v' ∧ firstNull (dv 92 v) = none) (hany : ∀ b, strip (dv b v') = v ∧ firstNull (dv b v') = none)
    {w : List Byte} (hw : StringBody q w) : ∀ u, vecOf u = v → vecOf (u ++ w) = v ∧
      ∀ j z, z ≠ [] → z <+: w → ¬ PatMatches j (u ++ z) := by
  induction hw with
  | nil =>
    intro u hu
    exact ⟨by rw [List.append_nil, hu], fun j z h1 h2 => absurd (List.prefix_nil.1 h2) h1⟩
  | @plain b w h1 h2 _ ih =>
    intro u hu
    obtain ⟨i1, i2⟩ := ih (u ++ [b]) (by rw [vecOf_append, hu]; exact (hplain b h1 h2).1)
    rw [List.append_assoc, List.singleton_append] at i1
    refine ⟨i1, fun j z hz hp => ?_⟩
    cases z with
    | nil => exact absurd rfl hz
    | cons c z =>
      obtain ⟨rfl, hp'⟩ := List.cons_prefix_cons.1 hp
      by_cases hz0 : z = []
      · subst hz0; exact step_none hu (hplain c h1 h2).2 j
      · have := i2 j z hz0 hp'
        rwa [List.append_assoc, List.singleton_append] at this
  | @escape b w _ ih =>
    intro u hu
    have hu1 : vecOf (u ++ [92]) = v' := by rw [vecOf_append, hu]; exact hback.1
    obtain ⟨i1, i2⟩ := ih (u ++ [92] ++ [b]) (by rw [vecOf_append, hu1]; exact (hany b).1)
    rw [List.append_assoc, List.append_assoc, List.singleton_append, List.singleton_append] at i1
    refine ⟨i1, fun j z hz hp => ?_⟩
    cases z with
    | nil => exact absurd rfl hz
    | cons c z =>
      obtain ⟨rfl, hp'⟩ := List.cons_prefix_cons.1 hp
      cases z with
      | nil => exact step_none hu hback.2 j
      | cons d z =>
        obtain ⟨rfl, hp2⟩ := List.cons_prefix_cons.1 hp'
        by_cases hz0 : z = []
        · subst hz0
          have := step_none hu1 (hany d).2 j
          rwa [List.append_assoc, List.singleton_append] at this
        · have := i2 j z hz0 hp2
          rwa [List.append_assoc, List.append_assoc, List.singleton_append, List.singleton_append] at this

theorem literal_run {q : Byte} {v v' : Vec} {i : ℕ} (hplain : ∀ b, b ≠ q → b ≠ 92 → strip (dv b v) = v ∧ firstNull (dv b v) = none)
    (hback : strip (dv 92 v) = v' ∧ firstNull (dv 92 v) = none) (hany : ∀ b, strip (dv b v') = v ∧ firstNull (dv b v') = none)
    (hv : vecOf [q] = v) (hq : firstNull (dv q v) = some i) (hend : strip (dv q v) = [])
    {w : List Byte} (hw : StringBody q w) (r : List Byte) : Longest (q :: w ++ q :: r) i (w.length + 2) := by
  obtain ⟨h1, _⟩ := body_run hplain hback hany hw [q] hv
  have hlen : (q :: w).length = w.length + 1 := rfl
  have htake : (q :: w ++ q :: r).take (w.length + 1) = q :: w := by
    rw [← hlen, List.take_left]
  have hget : (q :: w ++ q :: r)[w.length + 1]? = some q := by
    rw [← hlen, List.getElem?_append_right (le_refl _)]; simp
  have hb := isBest_hit (s := q :: w ++ q :: r) (i := i) hget (by rw [htake]; rw [show q :: w = [q] ++ w from rfl, h1, hq])
  refine longest_of_best (by simp) hb (fun j k h3 h4 => no_longer (n := w.length + 2) ?_ rfl h3 h4)
  rw [List.take_add_one, hget, htake, Option.toList_some, vecOf_append, show q :: w = [q] ++ w from rfl, h1, hend]

/-- A string literal. -/
theorem longest_string {q : Byte} (hq : q = 34 ∨ q = 39) {w : List Byte} (hw : StringBody q w) (r : List Byte) :
    ∃ i, useOf i = .quoted .string ∧ Longest (q :: w ++ q :: r) i (w.length + 2) := by
  rcases hq with rfl | rfl
  · exact ⟨21, rfl, literal_run (v := resid 1) (v' := resid 2) (by decide +kernel) (by decide +kernel) (by decide +kernel)
      (by decide +kernel) (by decide +kernel) (by decide +kernel) hw r⟩
  · exact ⟨20, rfl, literal_run (v := resid 3) (v' := resid 4) (by decide +kernel) (by decide +kernel) (by decide +kernel)
      (by decide +kernel) (by decide +kernel) (by decide +kernel) hw r⟩

theorem no_match_open {q : Byte} (hq : q = 34 ∨ q = 39) {w : List Byte} (hw : StringBody q w) :
    ∀ i k, k ≤ (q :: w).length → ¬ PatMatches i ((q :: w).take k) := by
  have key : ∀ j z, z ≠ [] → z <+: w → ¬ PatMatches j ([q] ++ z) := by
    rcases hq with rfl | rfl
    · exact (body_run (v := resid 1) (v' := resid 2) (by decide +kernel) (by decide +kernel) (by decide +kernel) hw [34]
        (by decide +kernel)).2
    · exact (body_run (v := resid 3) (v' := resid 4) (by decide +kernel) (by decide +kernel) (by decide +kernel) hw [39]
        (by decide +kernel)).2
  have hone : ∀ j, ¬ PatMatches j [q] := by
    rcases hq with rfl | rfl
    · exact step_none (u := []) (v := allPatterns) rfl (by decide +kernel)
    · exact step_none (u := []) (v := allPatterns) rfl (by decide +kernel)
  intro i k hk
  cases k with
  | zero => simpa using not_patMatches_nil i
  | succ k =>
    rw [List.take_succ_cons]
    by_cases h0 : w.take k = []
    · rw [h0]; exact hone i
    · exact key i _ h0 (List.take_prefix k w)

theorem longest_open_comment (r : List Byte) : Longest (bytes "/*" ++ r) 24 2 := by
  have h1 : (bytes "/*" ++ r)[0]? = some 47 := rfl
  have h2 : (bytes "/*" ++ r)[1]? = some 42 := rfl
  have hb2 : IsBest (bytes "/*" ++ r) 2 (some (24, 2)) := isBest_hit (n := 1) h2 (by
    show firstNull (dv 42 (vecOf [47])) = some 24; decide +kernel)
  refine longest_of_best (by simp [bytes]) hb2 (fun j k h3 h4 => no_longer (n := 2) (w := bytes "/*") ?_ rfl h3 h4)
  decide +kernel

theorem extendable_letters (n : ℕ) : Extendable (List.replicate n (120 : Byte)) := by
  refine ⟨18, [120], by simp, ?_⟩
  have hstar : ∀ n, Matches (.star alnumU) (List.replicate n (120 : Byte)) := by
    intro n
    induction n with
    | zero => exact .starNil
    | succ n ih => exact Matches.starCons (v := [120]) (.cls (by decide)) ih
  refine ⟨.cat alphaU (.star alnumU), .tokenText .identifier, rfl, ?_⟩
  have : List.replicate n (120 : Byte) ++ [120] = [120] ++ List.replicate n 120 := by
    rw [← List.replicate_succ']; rfl
  rw [this]
  exact .cat (.cls (by decide)) (hstar n)

/-- The states reached by identifiers. -/
def identStates : List ℕ := [15, 17, 18, 19, 20, 21, 22, 23, 24, 25, 26, 27, 28, 29, 30, 31, 32, 33, 34, 35, 36, 37, 38, 39, 40, 41]

def goesTo (cs : ℕ) (b : Byte) : ℕ :=
  match eff (findTrans cs (code b)) with
  | .go cs' _ _ _ => cs'
  | _ => 0

theorem ident_first : ∀ b : Byte, letter b = true → goesTo 10 b ∈ identStates ∧ (goesTo 10 b = 17 → b = 69 ∨ b = 101) := by
  decide +kernel

theorem ident_next : ∀ cs ∈ identStates, ∀ b : Byte, letterOrDigit b = true → goesTo cs b ∈ identStates ∧ goesTo cs b ≠ 17 := by
  decide +kernel

theorem ident_stop : ∀ cs ∈ identStates, cs ≠ 17 → ∀ b : Byte, letterDigitColon b = false → dv b (resid cs) = [] := by decide +kernel

theorem ident_stop17 : ∀ b : Byte, letterDigitColon b = false → b ≠ 43 → b ≠ 45 → dv b (resid 17) = [] := by decide +kernel

theorem ident_sign : ∀ b : Byte, b = 43 ∨ b = 45 → strip (dv b (resid 17)) = resid 6 ∧ firstNull (dv b (resid 17)) = none := by
  decide +kernel

theorem ident_nodigit : ∀ b : Byte, inRanges b [(48, 57)] = false → dv b (resid 6) = [] := by decide +kernel

theorem identStates_sub : ∀ cs ∈ identStates, cs ∈ states ∧ cs ≠ 0 := by decide

theorem goesTo_resid {cs : ℕ} (hcs : cs ∈ states) {b : Byte} (h : goesTo cs b ∈ identStates) :
    strip (dv b (resid cs)) = resid (goesTo cs b) := by
  have hok := okTrans_of hcs b
  unfold goesTo at h ⊢
  cases he : eff (findTrans cs (code b)) with
  | go cs' nl mark act =>
    simp only [okTrans, he, Bool.and_eq_true, decide_eq_true_eq] at hok
    exact hok.2.1.1.2
  | shut => rw [he] at h; exact absurd rfl (identStates_sub _ h).2
  | back => rw [he] at h; exact absurd rfl (identStates_sub _ h).2
  | rewind => rw [he] at h; exact absurd rfl (identStates_sub _ h).2
  | last => rw [he] at h; exact absurd rfl (identStates_sub _ h).2
  | bad => rw [he] at h; exact absurd rfl (identStates_sub _ h).2

theorem ident_state (a : Byte) (ha : letter a = true) (w : List Byte) (hw : ∀ b ∈ w, letterOrDigit b = true) :
    ∃ cs ∈ identStates, vecOf (a :: w) = resid cs ∧ (cs = 17 → w = [] ∧ (a = 69 ∨ a = 101)) := by
  induction w using List.reverseRecOn with
  | nil =>
    obtain ⟨h1, h2⟩ := ident_first a ha
    refine ⟨_, h1, ?_, fun h => ⟨rfl, h2 h⟩⟩
    have := goesTo_resid (cs := 10) (by decide) h1
    rw [← this]
    rfl
  | append_singleton w b ih =>
    obtain ⟨cs, hcs, hv, _⟩ := ih (fun b hb => hw b (by simp [hb]))
    obtain ⟨h1, h2⟩ := ident_next cs hcs b (hw b (by simp))
    refine ⟨_, h1, ?_, fun h => absurd h h2⟩
    rw [show a :: (w ++ [b]) = (a :: w) ++ [b] from rfl, vecOf_append, hv]
    exact goesTo_resid (identStates_sub _ hcs).1 h1

theorem matches_chars (l : List Char) (w : List Byte) :
    Matches (l.foldr (fun c r => .cat (chr c) r) .eps) w → w.map Fin.val = l.map Char.toNat := by
  induction l generalizing w with
  | nil => intro h; rw [matches_eps.1 h]; rfl
  | cons c l ih =>
    intro h
    obtain ⟨u, v, rfl, h1, h2⟩ := matches_cat.1 h
    obtain ⟨b, rfl, hb⟩ := matches_cls.1 h1
    have hbc : b.val = c.toNat := by
      simp only [inRanges, List.any_cons, List.any_nil, Bool.or_false, Bool.and_eq_true, Nat.ble_eq] at hb
      omega
    simp only [List.singleton_append, List.map_cons, hbc, ih v h2]

/-- An identifier that is not a keyword is read as an identifier, when no character follows that could belong to it. -/
theorem longest_ident (a : Byte) (ha : letter a = true) (w : List Byte) (hw : ∀ b ∈ w, letterOrDigit b = true) (r : List Byte)
    (hkey : ∀ k ∈ keywords, (a :: w).map Fin.val ≠ k.toList.map Char.toNat)
    (hr : ∀ b, r.head? = some b → letterDigitColon b = false)
    (hexp : ¬ (w = [] ∧ (a = 69 ∨ a = 101) ∧ (∃ c d r', r = c :: d :: r' ∧ (c = 43 ∨ c = 45) ∧ inRanges d [(48, 57)] = true))) :
    Longest ((a :: w) ++ r) 18 (w.length + 1) := by
  obtain ⟨cs, hcs, hv, h17⟩ := ident_state a ha w hw
  have htake : ((a :: w) ++ r).take (w.length + 1) = a :: w := by
    rw [show w.length + 1 = (a :: w).length from rfl, List.take_left]
  have hident : PatMatches 18 (a :: w) := by
    refine ⟨.cat alphaU (.star alnumU), .tokenText .identifier, rfl, ?_⟩
    have hstar : Matches (.star alnumU) w := by
      clear hv hkey hexp htake h17
      induction w with
      | nil => exact .starNil
      | cons b w ih =>
        exact Matches.starCons (v := [b]) (.cls (hw b (by simp))) (ih (fun b hb => hw b (by simp [hb])))
    exact Matches.cat (v := [a]) (.cls ha) hstar
  have hmore : ∀ j k, w.length + 1 < k → k ≤ ((a :: w) ++ r).length → ¬ PatMatches j (((a :: w) ++ r).take k) := by
    cases r with
    | nil => intro j k h1 h2; simp at h2; omega
    | cons c r =>
      have hget : ((a :: w) ++ c :: r)[w.length + 1]? = some c := by
        rw [List.getElem?_append_right (by simp)]; simp
      have hc := hr c rfl
      have hdone : dv c (resid cs) = [] → ∀ j k, w.length + 1 < k → k ≤ ((a :: w) ++ c :: r).length →
          ¬ PatMatches j (((a :: w) ++ c :: r).take k) := by
        intro hd j k h1 h2 hm
        rcases Nat.lt_or_ge (w.length + 2) k with h3 | h3
        · refine no_longer (n := w.length + 2) ?_ rfl h3 h2 hm
          rw [List.take_add_one, hget, htake, Option.toList_some, vecOf_append, hv, hd]; rfl
        · obtain rfl : k = w.length + 1 + 1 := by omega
          rw [List.take_add_one, hget, htake, Option.toList_some] at hm
          obtain ⟨r', hr', _⟩ := (patMatches_snoc _ _ _).1 hm
          rw [hv, hd] at hr'; simp at hr'
      by_cases hcs17 : cs = 17
      · by_cases hsign : c = 43 ∨ c = 45
        · obtain ⟨hw0, hae⟩ := h17 hcs17
          subst hw0
          subst hcs17
          obtain ⟨s1, s2⟩ := ident_sign c hsign
          have hv2 : vecOf [a, c] = resid 6 := by
            rw [show [a, c] = [a] ++ [c] from rfl, vecOf_append, hv, s1]
          have hno2 : ∀ j, ¬ PatMatches j [a, c] := by
            intro j hm
            obtain ⟨r', hr', hn⟩ := (patMatches_snoc [a] c j).1 hm
            rw [hv] at hr'
            exact firstNull_none s2 j r' hr' hn
          intro j k h1 h2 hm
          simp only [List.length_nil, Nat.zero_add] at h1
          rcases Nat.lt_or_ge 2 k with h3 | h3
          · cases r with
            | nil => simp at h2; omega
            | cons d r =>
              have hd : inRanges d [(48, 57)] = false := by
                by_contra hne
                exact hexp ⟨rfl, hae, c, d, r, rfl, hsign, by simpa using hne⟩
              have hdv := ident_nodigit d hd
              rcases Nat.lt_or_ge 3 k with h4 | h4
              · refine no_longer (n := 3) (w := [a, c, d]) ?_ rfl h4 h2 hm
                rw [show [a, c, d] = [a, c] ++ [d] from rfl, vecOf_append, hv2, hdv]; rfl
              · obtain rfl : k = 3 := by omega
                have hm' : PatMatches j ([a, c] ++ [d]) := hm
                obtain ⟨r', hr', _⟩ := (patMatches_snoc _ _ _).1 hm'
                rw [hv2, hdv] at hr'; simp at hr'
          · obtain rfl : k = 2 := by omega
            exact hno2 j hm
        · refine hdone ?_
          rw [hcs17]
          exact ident_stop17 c hc (fun h => hsign (Or.inl h)) (fun h => hsign (Or.inr h))
      · exact hdone (ident_stop cs hcs hcs17 c hc)
  refine ⟨by simp, by rw [htake]; exact hident, ?_, ?_⟩
  · intro j k hk hm
    by_contra hne
    exact hmore j k (by omega) hk hm
  · intro j hj
    rw [htake] at hj
    by_contra hlt
    push Not at hlt
    obtain ⟨re, u, hre, hm⟩ := hj
    have haR : 65 ≤ a.val := by
      simp only [letter, inRanges, List.any_cons, List.any_nil, Bool.or_false, Bool.or_eq_true, Bool.and_eq_true, Nat.ble_eq] at ha
      omega
    have haR2 : a.val ≠ 94 ∧ a.val ≤ 122 := by
      simp only [letter, inRanges, List.any_cons, List.any_nil, Bool.or_false, Bool.or_eq_true, Bool.and_eq_true, Nat.ble_eq] at ha
      omega
    have hsym : ∀ l : String, re = lit l → (a :: w).map Fin.val = l.toList.map Char.toNat := by
      intro l hl
      rw [hl] at hm
      exact matches_chars l.toList (a :: w) hm
    have hbad : ∀ l : String, (∀ x ∈ (l.toList.map Char.toNat).head?, x < 65 ∨ x = 94 ∨ 122 < x) → re ≠ lit l := by
      intro l hl hre
      have := hsym l hre
      rw [List.map_cons] at this
      have h2 := hl a.val (by rw [← this]; simp)
      omega
    interval_cases j <;> simp only [patterns, List.getElem?_cons_zero, List.getElem?_cons_succ, Option.some.injEq, Prod.mk.injEq] at hre
    · exact hbad "=" (by decide) hre.1.symm
    · exact hbad "{" (by decide) hre.1.symm
    · exact hbad "}" (by decide) hre.1.symm
    · exact hbad "(" (by decide) hre.1.symm
    · exact hbad ")" (by decide) hre.1.symm
    · exact hbad ";" (by decide) hre.1.symm
    · exact hbad "," (by decide) hre.1.symm
    · exact hbad "+" (by decide) hre.1.symm
    · exact hbad "-" (by decide) hre.1.symm
    · exact hbad "*" (by decide) hre.1.symm
    · exact hbad "/" (by decide) hre.1.symm
    · exact hbad "^" (by decide) hre.1.symm
    · exact hkey "int" (by simp [keywords]) (hsym "int" hre.1.symm)
    · exact hkey "integer" (by simp [keywords]) (hsym "integer" hre.1.symm)
    · exact hkey "float" (by simp [keywords]) (hsym "float" hre.1.symm)
    · exact hkey "double" (by simp [keywords]) (hsym "double" hre.1.symm)
    · exact hkey "real" (by simp [keywords]) (hsym "real" hre.1.symm)
    · exact hkey "string" (by simp [keywords]) (hsym "string" hre.1.symm)

theorem afterComment_first (w r : List Byte) (hw : ¬ [42, 47] <:+: w ++ [42]) : afterComment (w ++ 42 :: 47 :: r) = some r := by
  induction w with
  | nil => simp [afterComment]
  | cons a w ih =>
    have ih := ih (fun h => hw (h.trans (List.suffix_cons a _).isInfix))
    cases w with
    | nil =>
      simp only [List.singleton_append, afterComment]
      rw [if_neg (fun h => absurd h.2 (by decide))]
      simp
    | cons b w =>
      simp only [List.cons_append, afterComment]
      rw [if_neg]
      · exact ih
      · rintro ⟨rfl, rfl⟩
        exact hw ⟨[], w ++ [42], rfl⟩

theorem afterComment_none (w : List Byte) (hw : ¬ [42, 47] <:+: w) : afterComment w = none := by
  induction w with
  | nil => rfl
  | cons a w ih =>
    have ih := ih (fun h => hw (h.trans (List.suffix_cons a _).isInfix))
    cases w with
    | nil => rfl
    | cons b w =>
      rw [afterComment, if_neg]
      · exact ih
      · rintro ⟨rfl, rfl⟩
        exact hw ⟨[], w, rfl⟩

/-- The next token determines how the scan goes on. -/
theorem lex_token_iff {s : List Byte} {i n L : ℕ} {toks : List Tok} {e : Ending} (hl : Longest s i n) (hu : useOf i ≠ .comment) :
    Lex s L toks e ↔ ∃ toks', toks = emitted (L + newlines (s.take n)) (s.take n) (useOf i) ++ toks' ∧
      Lex (s.drop n) (L + newlines (s.take n)) toks' e := by
  constructor
  · intro h
    cases h with
    | nil => have h1 := longest_pos hl; have h2 := hl.inside; simp at h2; omega
    | token hl' hu' h =>
      obtain ⟨rfl, rfl⟩ := longest_unique hl hl'
      exact ⟨_, rfl, h⟩
    | comment hl' hu' => obtain ⟨rfl, rfl⟩ := longest_unique hl hl'; exact absurd hu' hu
    | openComment hl' hu' => obtain ⟨rfl, rfl⟩ := longest_unique hl hl'; exact absurd hu' hu
    | openString hno => exact absurd hl.here (hno i n hl.inside)
    | bad hno => exact absurd hl.here (hno i n hl.inside)
  · rintro ⟨toks', rfl, h⟩
    exact .token hl hu h

theorem lex_comment_iff {s r : List Byte} {i n L : ℕ} {toks : List Tok} {e : Ending} (hl : Longest s i n) (hu : useOf i = .comment)
    (ha : afterComment (s.drop n) = some r) : Lex s L toks e ↔ Lex r (L + (newlines s - newlines r)) toks e := by
  constructor
  · intro h
    cases h with
    | nil => have h1 := longest_pos hl; have h2 := hl.inside; simp at h2; omega
    | token hl' hu' h => obtain ⟨rfl, rfl⟩ := longest_unique hl hl'; exact absurd hu hu'
    | comment hl' hu' ha' h =>
      obtain ⟨rfl, rfl⟩ := longest_unique hl hl'
      rw [ha] at ha'; cases ha'
      exact h
    | openComment hl' hu' ha' =>
      obtain ⟨rfl, rfl⟩ := longest_unique hl hl'
      rw [ha] at ha'; cases ha'
    | openString hno => exact absurd hl.here (hno i n hl.inside)
    | bad hno => exact absurd hl.here (hno i n hl.inside)
  · exact .comment hl hu ha

end Schnek.Lemma.Scanner
