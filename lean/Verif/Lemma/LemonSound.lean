import Verif.Lemma.LemonShort

/-!
# The parser always comes to an end, what it accepts is a derivation, and where it finds errors
-/

namespace Schnek.Lemma.Lemon

open Schnek.Lemon Schnek.Spec
open Scanner (Kind)

variable {V S : Type}

/-! ## the invariant -/

/-- What has been read is on the stack. `tokens` is what the parser read or will read since the stack was empty for the last time, and
`s0` the state at that time. -/
structure Inv (act : Actions V S) (D : ℕ) (v0 : V) (tokens : List (Kind × V)) (s0 : S) (es : List (Entry V)) (b : Entry V)
    (rest : List (Kind × V)) (s : S) (G : Forest V) : Prop where
  linked : Linked (es ++ [b])
  valid : G.Valid
  syms : G.syms.map symCode = es.reverse.map Entry.major
  eval : G.eval act s0 = (some (es.reverse.map Entry.minor), s)
  yield : tokens = G.yield ++ rest
  height : G.height 1 ≤ D
  /-- the parser gets here whatever comes after the next token -/
  replay : ∀ D' ≥ D, ∀ rest', rest'.head? = rest.head? →
    Reach act D' v0 ⟨[b], codes (G.yield ++ rest') ++ [(0, v0)], s0⟩ ⟨es ++ [b], codes rest' ++ [(0, v0)], s⟩

/-- what is left to do -/
def measure (es : List (Entry V)) (rest : List (Kind × V)) : ℕ :=
  21 * rest.length + (es.map fun e => weight e.major).sum

theorem linked_suffix {a l : List (Entry V)} (h : Linked (a ++ l)) (hl : l ≠ []) : Linked l := by
  induction a with
  | nil => exact h
  | cons x a ih =>
    refine ih ?_
    cases hal : a ++ l with
    | nil => exact absurd (List.append_eq_nil_iff.1 hal).2 hl
    | cons y m =>
      rw [List.cons_append, hal] at h
      exact h.2.2.2.2

/-- below the top there is no token that ends a statement -/
theorem linked_below {es : List (Entry V)} {x b : Entry V} (h : Linked (x :: (es ++ [b]))) :
    ∀ e ∈ es, e.major ∉ [0, 6, 9, 11, 23, 25, 29] ∧ e.major ≠ 22 := by
  induction es generalizing x with
  | nil => intro e he; cases he
  | cons e es ih =>
    intro e1 he
    rcases List.mem_cons.1 he with rfl | he
    · cases es with
      | nil =>
        have := linked_inner_one (l := []) h
        exact ⟨this.1, this.2.2⟩
      | cons e2 es =>
        have := linked_inner_one (l := es ++ [b]) h
        exact ⟨this.1, this.2.2⟩
    · exact ih h.2.2.2.2 e1 he

theorem symCode_list {X : Sym} (h : symCode X = 24) : X = .n .statementlist := by
  cases X with
  | t k => cases k <;> revert h <;> decide
  | n N => cases N <;> revert h <;> decide
  | error => revert h; decide

/-- Below the top there are, above the statements that have been executed, only symbols of the statement that is being read. -/
theorem stack_shape {es : List (Entry V)} {x b : Entry V} (h : Linked (x :: (es ++ [b]))) {syms : List Sym}
    (hs : syms.map symCode = es.reverse.map Entry.major) :
    ∃ L I, syms = L ++ I ∧ (L = [] ∨ L = [.n .statementlist]) ∧ ∀ X ∈ I, inner X = true := by
  have hin := linked_inner h
  have hbe := linked_below h
  cases syms with
  | nil => exact ⟨[], [], rfl, Or.inl rfl, by simp⟩
  | cons X l =>
    have hl : ∀ Y ∈ l, inner Y = true := by
      intro Y hY
      by_contra hn
      rw [Bool.not_eq_true] at hn
      have hm : symCode Y ∈ es.dropLast.map Entry.major := by
        have h1 : symCode Y ∈ ((X :: l).map symCode).tail := List.mem_map_of_mem hY
        rw [hs, ← List.map_tail, List.tail_reverse] at h1
        simpa using h1
      obtain ⟨e, he, hX'⟩ := List.mem_map.1 hm
      obtain ⟨h1, h2, h3⟩ := hin e he
      rw [hX'] at h1 h2 h3
      rcases inner_or (by rintro rfl; exact h3 rfl) hn with h4 | h4
      · exact h1 h4
      · exact h2 h4
    by_cases hX : inner X = true
    · refine ⟨[], X :: l, rfl, Or.inl rfl, ?_⟩
      intro Y hY
      rcases List.mem_cons.1 hY with rfl | hY
      · exact hX
      · exact hl Y hY
    · rw [Bool.not_eq_true] at hX
      have hm : symCode X ∈ es.reverse.map Entry.major := by
        rw [← hs]
        simp
      obtain ⟨e, he, hX'⟩ := List.mem_map.1 hm
      obtain ⟨h2, h3⟩ := hbe e (by simpa using he)
      rw [hX'] at h2 h3
      rcases inner_or (by rintro rfl; exact h3 rfl) hX with h4 | h4
      · exact ⟨[X], l, rfl, Or.inr (by rw [symCode_list h4]), hl⟩
      · exact absurd h4 h2

/-- An action throws. Some tokens may have been lost with the stack; `A` is what has been read after that, without the right hand side `B` of
the rule, which is followed by the tokens that have not been used. -/
structure Failing (act : Actions V S) (D : ℕ) (tokens : List (Kind × V)) (s0 s' : S) where
  rule : Fin 48
  lost : List (Kind × V)
  start : S
  before : lost = [] ∧ start = s0 ∨ Long D lost
  A : Forest V
  validA : A.Valid
  shape : ∃ L I, A.syms = L ++ I ∧ (L = [] ∨ L = [.n .statementlist]) ∧ ∀ X ∈ I, inner X = true
  vs : List V
  s1 : S
  evalA : A.eval act start = (some vs, s1)
  B : Forest V
  validB : B.Valid
  symsB : B.syms = rhs rule
  ws : List V
  s2 : S
  evalB : B.eval act s1 = (some ws, s2)
  rest : List (Kind × V)
  tokens_eq : tokens = lost ++ (A.yield ++ (B.yield ++ rest))
  throws : act rule ws s2 = (none, s')

/-- One step from a configuration with the invariant. -/
inductive Step (act : Actions V S) (D : ℕ) (v0 : V) (tokens : List (Kind × V)) (s0 : S) (es : List (Entry V)) (b : Entry V)
    (rest : List (Kind × V)) (s : S) : Outcome V S → Prop
  | move (es' : List (Entry V)) (rest' : List (Kind × V)) (s' : S) (G' : Forest V) (h : Inv act D v0 tokens s0 es' b rest' s' G')
      (hm : measure es' rest' < measure es rest) :
      Step act D v0 tokens s0 es b rest s (.running ⟨es' ++ [b], codes rest' ++ [(0, v0)], s'⟩)
  | overflow (pre post : List (Kind × V)) (h : tokens = pre ++ post) (hl : Long D pre) (hp : post.length < rest.length) :
      Step act D v0 tokens s0 es b rest s (.running ⟨[], codes post ++ [(0, v0)], s⟩)
  | accept (F : Forest V) (h : F.Derives [.n .deck] tokens) (v : List V) (s' : S) (he : F.eval act s0 = (some v, s'))
      (hh : F.height 1 ≤ D) :
      Step act D v0 tokens s0 es b rest s (.running ⟨[], [], s'⟩)
  | thrown (s' : S) (hf : Nonempty (Failing act D tokens s0 s')) : Step act D v0 tokens s0 es b rest s (.thrown s')
  | error (mid : List (Kind × V)) (h : tokens = mid ++ rest) (hv : ∃ post, Grammatical (mid ++ post))
      (hn : ∀ rest', rest'.head? = rest.head? → ¬ Grammatical (mid ++ rest')) :
      Step act D v0 tokens s0 es b rest s (.syntaxError rest.length s)

/-- the symbol on top -/
theorem Inv.top (act : Actions V S) (D : ℕ) (v0 : V) (tokens : List (Kind × V)) (s0 : S) (es : List (Entry V)) (b : Entry V) :
    ∃ e l, es ++ [b] = e :: l := by
  cases es with
  | nil => exact ⟨_, _, rfl⟩
  | cons e l => exact ⟨_, _, rfl⟩

/-- shifting a token -/
theorem inv_shift {act : Actions V S} {D : ℕ} {v0 : V} {tokens : List (Kind × V)} {s0 : S} {es : List (Entry V)} {b : Entry V}
    {k : Kind} {v : V} {rest : List (Kind × V)} {s : S} {G : Forest V} (h : Inv act D v0 tokens s0 es b ((k, v) :: rest) s G)
    {e : Entry V} {l : List (Entry V)} (hel : es ++ [b] = e :: l) (hg : findShift e.state k.code < nState) :
    Step act D v0 tokens s0 es b ((k, v) :: rest) s
      (.running ⟨shift D (e :: l) ⟨findShift e.state k.code, k.code, v⟩, codes rest ++ [(0, v0)], s⟩) := by
  have hlen : (e :: l).length = es.length + 1 := by rw [← hel]; simp
  have hes : es.length = G.syms.length := by
    have := congrArg List.length h.syms
    simpa using this.symm
  have hgo : goto e.state k.code = findShift e.state k.code := by
    unfold goto
    rw [if_pos (code_lt k)]
  have hlink : Linked (⟨goto e.state k.code, k.code, v⟩ :: e :: l) := by
    refine linked_goto (by rw [← hel]; exact h.linked) ?_ ?_ (by rw [hgo]; exact hg) v
    · have := code_lt k; omega
    · have := code_lt k; omega
  rw [hgo] at hlink
  unfold shift
  by_cases hD : D ≤ (e :: l).length
  · rw [if_pos hD]
    refine .overflow (G.yield ++ [(k, v)]) rest ?_ ⟨?_, ?_⟩ ?_
    · rw [h.yield]; simp
    · have := syms_le_yield G h.valid
      simp only [List.length_append, List.length_singleton]
      omega
    · obtain ⟨a, run, h1, h2, h3⟩ := stack_inner (by rw [← hel] at hlink; exact hlink) h.valid h.syms
      exact ⟨a, run, [(k, v)], by rw [h1], h2, by omega⟩
    · simp
  · rw [if_neg hD]
    have := Step.move (act := act) (D := D) (v0 := v0) (tokens := tokens) (s0 := s0) (es := es) (b := b) (rest := (k, v) :: rest)
      (s := s) (⟨findShift e.state k.code, k.code, v⟩ :: es) rest s (append G (.tok k v .nil)) ?_ ?_
    · rw [← hel]; exact this
    · refine ⟨by rw [List.cons_append, hel]; exact hlink, ?_, ?_, ?_, ?_, ?_, ?_⟩
      · rw [valid_append]; exact ⟨h.valid, trivial⟩
      · rw [syms_append, List.map_append, h.syms, List.reverse_cons, List.map_append]
        rfl
      · rw [eval_append, h.eval]
        simp only [Forest.eval, List.reverse_cons, List.map_append]
        rfl
      · rw [yield_append, h.yield, List.append_assoc]
        rfl
      · rw [height_append]
        refine max_le h.height ?_
        show 1 + G.syms.length + 1 ≤ D
        omega
      · intro D' hD' rest' _
        have h1 := h.replay D' hD' ((k, v) :: rest') rfl
        rw [yield_append, List.append_assoc, List.cons_append]
        refine h1.trans (Reach.tick ?_)
        rw [hel]
        rw [show codes ((k, v) :: rest') ++ [(0, v0)] = (k.code, v) :: (codes rest' ++ [(0, v0)]) from rfl,
          tick_shift hg (Nat.ne_of_gt (code_pos k)), shift_ok (by omega)]
    · unfold measure
      simp only [List.map_cons, List.sum_cons, List.length_cons]
      have : weight k.code = 20 := by
        unfold weight
        rw [if_pos (lt_trans (code_lt k) (by decide))]
      omega

/-- a reduction -/
theorem inv_reduce {act : Actions V S} {D : ℕ} {v0 : V} {tokens : List (Kind × V)} {s0 : S} {es : List (Entry V)} {b : Entry V}
    {rest : List (Kind × V)} {s : S} {G : Forest V} (h : Inv act D v0 tokens s0 es b rest s G)
    {e : Entry V} {l : List (Entry V)} (hel : es ++ [b] = e :: l) {r : ℕ} (hr : r < 48) {a : ℕ} {w : V} {tl : List (ℕ × V)}
    (hin : codes rest ++ [(0, v0)] = (a, w) :: tl)
    (hshift : findShift e.state a = nState + r) (hcore : core e.state r (rhsC r).length = true) (ha : r = 0 → a = 0) :
    Step act D v0 tokens s0 es b rest s (tick act D v0 ⟨es ++ [b], codes rest ++ [(0, v0)], s⟩) := by
  have hl : Linked (e :: l) := by rw [← hel]; exact h.linked
  obtain ⟨es1, e', l', g1, g2, g3, g4, g5⟩ := linked_trace hl hcore
  rw [List.take_length] at g3
  have htick := fun D' tl' => tick_reduce (act := act) (D := D') (v0 := v0) (es := es1) (top := e') (below := l') (b := a) (w := w)
    (rest := tl') (s := s) hr g2 (by
      have : (es1 ++ e' :: l').headD e' = e := by rw [← g1]; rfl
      rw [this]; exact hshift)
  rw [hin, hel, g1, htick]
  -- the entries below
  obtain ⟨es2, hes2⟩ : ∃ es2, e' :: l' = es2 ++ [b] ∧ es = es1 ++ es2 := by
    have h1 : es ++ [b] = es1 ++ e' :: l' := hel.trans g1
    rcases List.eq_nil_or_concat (e' :: l') with h2 | ⟨es2, b', h2⟩
    · cases h2
    · rw [List.concat_eq_append] at h2
      rw [h2, ← List.append_assoc] at h1
      have h3 := List.append_inj' h1 rfl
      refine ⟨es2, ?_, h3.1⟩
      rw [h2, h3.2]
  obtain ⟨hl', hes⟩ := hes2
  let r' : Fin 48 := ⟨r, hr⟩
  have hrhs : rhsC r = (rhs r').map symCode := rhsC_eq r'
  have hlhs : lhsC r = ntCode (lhs r') := lhsC_eq r'
  obtain ⟨A, B, hG, hA, hB⟩ : ∃ A B, G = append A B ∧ A.syms.map symCode = es2.reverse.map Entry.major ∧ B.syms = rhs r' := by
    have h1 := h.syms
    rw [hes, List.reverse_append, List.map_append, g3, hrhs] at h1
    obtain ⟨x, y, hxy, hx, hy⟩ := List.map_eq_append_iff.mp h1
    obtain ⟨A, B, g6, g7, g8⟩ := split G hxy
    exact ⟨A, B, g6, by rw [g7, hx], by rw [g8]; exact map_symCode hy⟩
  have hlenA : A.syms.length = es2.length := by
    have := congrArg List.length hA
    simpa using this
  have hlenB : B.syms.length = es1.length := by rw [hB, g2, hrhs, List.length_map]
  obtain ⟨s1, hAe, hBe⟩ : ∃ s1, A.eval act s0 = (some (es2.reverse.map Entry.minor), s1) ∧
      B.eval act s1 = (some (es1.reverse.map Entry.minor), s) := by
    have h1 := h.eval
    rw [hG, eval_append, hes, List.reverse_append, List.map_append] at h1
    revert h1
    rcases hAe : A.eval act s0 with ⟨_ | vs, s1⟩
    · intro h1; cases h1
    · simp only
      rcases hBe : B.eval act s1 with ⟨_ | ws, s2⟩
      · intro h1; cases h1
      · intro h1
        simp only [Prod.mk.injEq, Option.some.injEq] at h1
        have h2 := List.append_inj h1.1 (by
          rw [eval_length act A hAe, hlenA]; simp)
        refine ⟨s1, by rw [h2.1], ?_⟩
        rw [hBe, h2.2, h1.2]
  have hv : A.Valid ∧ B.Valid := by rw [← valid_append, ← hG]; exact h.valid
  have hh : A.height 1 ≤ D ∧ B.height (1 + A.syms.length) ≤ D := by
    have := h.height
    rw [hG, height_append] at this
    exact ⟨le_trans (le_max_left _ _) this, le_trans (le_max_right _ _) this⟩
  have hBn : 1 + A.syms.length + 1 ≤ B.height (1 + A.syms.length) := by
    have hB0 : B.syms ≠ [] := by rw [hB]; exact rhs_ne_nil r'
    cases B with
    | nil => exact absurd rfl hB0
    | tok k v B => exact le_height B _
    | node r kids B => exact le_trans (le_height B _) (le_max_right _ _)
  rcases hact : act r (es1.reverse.map Entry.minor) s with ⟨_ | v, s'⟩
  · have hin : ∃ L I, A.syms = L ++ I ∧ (L = [] ∨ L = [.n .statementlist]) ∧ ∀ X ∈ I, inner X = true := by
      have hes1 : es1 ≠ [] := by
        rintro rfl
        have := hB
        rw [List.length_eq_zero_iff.1 (show B.syms.length = 0 by rw [hlenB]; rfl)] at this
        exact rhs_ne_nil r' this.symm
      obtain ⟨es1', x, rfl⟩ : ∃ es1' x, es1 = es1' ++ [x] := ⟨_, _, (List.dropLast_append_getLast hes1).symm⟩
      have hl1 : Linked (x :: (es2 ++ [b])) := by
        refine linked_suffix (a := es1') ?_ (by simp)
        have := h.linked
        rw [hes] at this
        simpa using this
      exact stack_shape hl1 hA
    exact .thrown s' ⟨⟨r', [], s0, .inl ⟨rfl, rfl⟩, A, hv.1, hin, _, s1, hAe, B, hv.2, hB, _, s, hBe, rest, by
      rw [h.yield, hG, yield_append, List.append_assoc]; rfl, hact⟩⟩
  · simp only
    have hst := start_cases (linked_live g5).1 hr g4
    -- the new forest
    let N : Forest V := append A (.node r' B .nil)
    have hNv : N.Valid := (valid_append _ _).mpr ⟨hv.1, hB, hv.2, trivial⟩
    have hNe : N.eval act s0 = (some (es2.reverse.map Entry.minor ++ [v]), s') := by
      show (append A (.node r' B .nil)).eval act s0 = _
      rw [eval_append, hAe]
      simp only [Forest.eval, hBe]
      have : act r' (es1.reverse.map Entry.minor) s = (some v, s') := hact
      rw [this]
    have hNy : tokens = N.yield ++ rest := by
      rw [h.yield, hG, yield_append]
      show _ = (append A (.node r' B .nil)).yield ++ rest
      rw [yield_append]
      simp [Forest.yield]
    have hNh : N.height 1 ≤ D := by
      show (append A (.node r' B .nil)).height 1 ≤ D
      rw [height_append]
      exact max_le hh.1 (max_le hh.2 (le_trans hBn hh.2))
    have hNs : N.syms.map symCode = es2.reverse.map Entry.major ++ [lhsC r] := by
      show (append A (.node r' B .nil)).syms.map symCode = _
      rw [syms_append, List.map_append, hA, hlhs]
      rfl
    by_cases h0 : r = 0
    · rw [if_pos h0] at hst
      rw [hst.2, if_neg (by decide), if_pos rfl]
      have hl0 := (linked_live g5).2 hst.1
      rw [hl0] at hl'
      have hes2 : es2 = [] := by
        have := congrArg List.length hl'
        simp only [List.length_append, List.length_singleton] at this
        exact List.length_eq_zero_iff.mp (by omega)
      have hrest : rest = [] ∧ tl = [] := by
        have ha0 := ha h0
        rw [ha0] at hin
        cases rest with
        | nil =>
          simp only [codes, List.map_nil, List.nil_append, List.cons.injEq] at hin
          exact ⟨rfl, hin.2.symm⟩
        | cons t rest =>
          simp only [codes, List.map_cons, List.cons_append, List.cons.injEq, Prod.mk.injEq] at hin
          have := code_pos t.1
          omega
      rw [hrest.2]
      refine .accept N ⟨hNv, ?_, ?_⟩ _ s' hNe hNh
      · apply map_symCode
        rw [hNs, hes2, h0]
        rfl
      · rw [hNy, hrest.1, List.append_nil]
    · rw [if_neg h0] at hst
      rw [if_pos hst, shift_ok (by rw [hl']; simp only [List.length_append, List.length_singleton]; omega)]
      simp only
      rw [hl', ← hin, ← List.cons_append]
      have hgo : goto e'.state (lhsC r) = findReduce e'.state (lhsC r) := by
        have : 23 ≤ lhsC r := by rw [hlhs]; exact ntCode_ge _
        unfold goto
        rw [if_neg (by omega)]
      refine .move (⟨findReduce e'.state (lhsC r), lhsC r, v⟩ :: es2) rest s' N ⟨?_, hNv, ?_, ?_, hNy, hNh, ?_⟩ ?_
      · rw [List.cons_append, ← hl', ← hgo]
        refine linked_goto g5 ?_ ?_ (by rw [hgo]; exact hst) v
        · rw [hlhs]; exact ntCode_lt _
        · have : 23 ≤ lhsC r := by rw [hlhs]; exact ntCode_ge _
          omega
      · rw [hNs]; simp
      · rw [hNe]; simp
      · intro D' hD' rest' hrest'
        have h1 := h.replay D' hD' rest' hrest'
        have hNG : N.yield = G.yield := by
          rw [hG]
          show (append A (.node r' B .nil)).yield = _
          rw [yield_append, yield_append]
          simp [Forest.yield]
        rw [hNG]
        refine h1.trans (Reach.tick ?_)
        obtain ⟨tl', htl'⟩ : ∃ tl', codes rest' ++ [(0, v0)] = (a, w) :: tl' := by
          cases rest with
          | nil =>
            have hr' : rest' = [] := by
              cases rest' with
              | nil => rfl
              | cons _ _ => cases hrest'
            rw [hr']
            exact ⟨tl, hin⟩
          | cons t rest =>
            cases rest' with
            | nil => cases hrest'
            | cons t' rest' =>
              simp only [List.head?_cons, Option.some.injEq] at hrest'
              simp only [codes, List.map_cons, List.cons_append, List.cons.injEq] at hin ⊢
              exact ⟨_, by rw [hrest']; exact hin.1, rfl⟩
        rw [htl', hel, g1, htick D' tl', hact]
        simp only
        rw [if_pos hst, shift_ok (by rw [hl']; simp only [List.length_append, List.length_singleton]; omega)]
        simp only
        rw [hl', ← List.cons_append]
      · unfold measure
        rw [hes]
        simp only [List.map_cons, List.sum_cons, List.map_append, List.sum_append]
        have hw := weight_rule hr
        have hsum : ((rhsC r).map weight).sum = (es1.map fun e => weight e.major).sum := by
          rw [← g3, List.map_map, List.map_reverse, List.sum_reverse]
          rfl
        omega

theorem ends_start {act : Actions V S} {D : ℕ} {v0 : V} {inp : List (ℕ × V)} {s : S} {o : Outcome V S}
    (h : Ends act D v0 ⟨[⟨0, 0, v0⟩], inp, s⟩ o) : Ends act D v0 ⟨[], inp, s⟩ o := by
  obtain ⟨h0, n, hn⟩ := h
  refine ⟨h0, n, ?_⟩
  cases n with
  | zero => exact absurd hn.symm (h0 _)
  | succ n =>
    rw [← hn]
    rfl

/-- one step -/
theorem inv_tick {act : Actions V S} {D : ℕ} {v0 : V} {tokens : List (Kind × V)} {s0 : S} {es : List (Entry V)} {b : Entry V}
    {rest : List (Kind × V)} {s : S} {G : Forest V} (h : Inv act D v0 tokens s0 es b rest s G) (hb0 : b = ⟨0, 0, v0⟩) :
    Step act D v0 tokens s0 es b rest s (tick act D v0 ⟨es ++ [b], codes rest ++ [(0, v0)], s⟩) := by
  obtain ⟨e, l, hel⟩ := Inv.top act D v0 tokens s0 es b
  have hl : Linked (e :: l) := by rw [← hel]; exact h.linked
  have hlive := (linked_live hl).1
  obtain ⟨a, w, tl, hin, ha⟩ : ∃ a w tl, codes rest ++ [(0, v0)] = (a, w) :: tl ∧ a < 22 := by
    cases rest with
    | nil => exact ⟨0, v0, [], rfl, by decide⟩
    | cons t rest => exact ⟨t.1.code, t.2, _, rfl, code_lt t.1⟩
  rcases shift_cases hlive ha with ⟨hg, h0⟩ | ⟨r, hr, hsh, hc, hr0⟩ | herr
  · cases rest with
    | nil =>
      simp only [codes, List.map_nil, List.nil_append, List.cons.injEq, Prod.mk.injEq] at hin
      exact absurd hin.1.1.symm h0
    | cons t rest =>
      obtain ⟨k, v⟩ := t
      simp only [codes, List.map_cons, List.cons_append, List.cons.injEq, Prod.mk.injEq] at hin
      obtain ⟨⟨rfl, rfl⟩, rfl⟩ := hin
      have := inv_shift h hel hg
      rw [hel]
      rw [show codes ((k, v) :: rest) ++ [(0, v0)] = (k.code, v) :: (codes rest ++ [(0, v0)]) from rfl, tick_shift hg h0]
      exact this
  · exact inv_reduce h hel hr hin hsh hc hr0
  · have : tick act D v0 ⟨es ++ [b], codes rest ++ [(0, v0)], s⟩ = .syntaxError rest.length s := by
      have hlen : tl.length = rest.length := by
        have := congrArg List.length hin
        simp only [codes, List.length_append, List.length_map, List.length_cons, List.length_nil] at this
        omega
      rw [hel, hin]
      simp only [tick, List.headD_cons, List.tail_cons, herr]
      rw [if_neg (by decide), if_neg (by decide), if_pos trivial, hlen]
    rw [this]
    refine .error G.yield h.yield (viable_stack v0 h.linked h.valid h.syms) fun rest' hrest' hgr => ?_
    obtain ⟨F, hF⟩ := hgr
    have h1 := deck_run act (max D (F.height 1)) v0 F _ hF (le_max_right _ _) s0
    have h2 := (h.replay (max D (F.height 1)) (le_max_left _ _) rest' hrest').ends
      (o := .syntaxError rest'.length s) (Ends.tick (by
        obtain ⟨tl', htl', hlen'⟩ : ∃ w' tl', codes rest' ++ [(0, v0)] = (a, w') :: tl' ∧ tl'.length = rest'.length := by
          cases rest with
          | nil =>
            have hr' : rest' = [] := by
              cases rest' with
              | nil => rfl
              | cons _ _ => cases hrest'
            rw [hr']
            simp only [codes, List.map_nil, List.nil_append, List.cons.injEq, Prod.mk.injEq] at hin
            exact ⟨v0, [], by rw [hin.1.1]; rfl, rfl⟩
          | cons t rest =>
            cases rest' with
            | nil => cases hrest'
            | cons t' rest' =>
              simp only [List.head?_cons, Option.some.injEq] at hrest'
              simp only [codes, List.map_cons, List.cons_append, List.cons.injEq, Prod.mk.injEq] at hin ⊢
              exact ⟨_, _, ⟨⟨by rw [hrest']; exact hin.1.1, rfl⟩, rfl⟩, by simp⟩
        obtain ⟨htl', hlen'⟩ := hlen'
        rw [hel, htl']
        simp only [Schnek.Lemon.tick, List.headD_cons, List.tail_cons, herr]
        rw [if_neg (by decide), if_neg (by decide), if_pos trivial, hlen']) (by intro c hc; cases hc))
    have hb : b = ⟨0, 0, v0⟩ := hb0
    rw [hb] at h2
    have h3 := Ends.unique h1 (ends_start h2)
    revert h3
    rcases F.eval act s0 with ⟨_ | vs, s'⟩ <;> (intro h3; cases h3)

/-- What can come of parsing. -/
inductive Result (act : Actions V S) (D : ℕ) (tokens : List (Kind × V)) (s0 : S) : Outcome V S → Prop
  | done (pre post : List (Kind × V)) (h : tokens = pre ++ post) (F : Forest V) (hF : F.Derives [.n .deck] post)
      (hh : F.height 1 ≤ D) (s1 : S) (hp : pre = [] ∧ s1 = s0 ∨ Long D pre) (v : List V) (s' : S)
      (he : F.eval act s1 = (some v, s')) : Result act D tokens s0 (.done s')
  | thrown (s' : S) (hf : Nonempty (Failing act D tokens s0 s')) : Result act D tokens s0 (.thrown s')
  | error (pre mid rest : List (Kind × V)) (h : tokens = pre ++ (mid ++ rest)) (hp : pre = [] ∨ Long D pre)
      (hv : ∃ post, Grammatical (mid ++ post)) (hn : ∀ rest', rest'.head? = rest.head? → ¬ Grammatical (mid ++ rest')) (s' : S) :
      Result act D tokens s0 (.syntaxError rest.length s')

theorem inv_start (act : Actions V S) {D : ℕ} (hD : 0 < D) (v0 : V) (tokens : List (Kind × V)) (s0 : S) :
    Inv act D v0 tokens s0 [] ⟨0, 0, v0⟩ tokens s0 .nil :=
  ⟨rfl, trivial, rfl, rfl, rfl, hD, fun _ _ _ _ => Reach.refl ..⟩

theorem ends_inv {act : Actions V S} {D : ℕ} (hD : 0 < D) {v0 : V} (n : ℕ) : ∀ {tokens : List (Kind × V)} {s0 : S}
    {es : List (Entry V)} {rest : List (Kind × V)} {s : S} {G : Forest V},
    Inv act D v0 tokens s0 es ⟨0, 0, v0⟩ rest s G → measure es rest < n →
    ∃ o, Ends act D v0 ⟨es ++ [⟨0, 0, v0⟩], codes rest ++ [(0, v0)], s⟩ o ∧ Result act D tokens s0 o := by
  induction n with
  | zero => intro tokens s0 es rest s G _ hn; omega
  | succ n ih =>
    intro tokens s0 es rest s G h hn
    have hstep := inv_tick h rfl
    revert hstep
    generalize ho : tick act D v0 ⟨es ++ [⟨0, 0, v0⟩], codes rest ++ [(0, v0)], s⟩ = o
    intro hstep
    cases hstep with
    | move es' rest' s' G' h' hm =>
      obtain ⟨o, h1, h2⟩ := ih h' (by omega)
      exact ⟨o, (Reach.tick ho).ends h1, h2⟩
    | overflow pre post h' hl hp =>
      have hm : measure ([] : List (Entry V)) post < n := by
        unfold measure at hn ⊢
        simp only [List.map_nil, List.sum_nil]
        omega
      obtain ⟨o, h1, h2⟩ := ih (inv_start act hD v0 post s) hm
      refine ⟨o, (Reach.tick ho).ends (ends_start h1), ?_⟩
      cases h2 with
      | done pre' post' hp' F hF hh s1 hs1 v s' he =>
        refine .done (pre ++ pre') post' (by rw [h', hp', List.append_assoc]) F hF hh s1 (.inr (hl.append _)) v s' he
      | thrown s' hf =>
        obtain ⟨f⟩ := hf
        exact .thrown s' ⟨{ f with
          lost := pre ++ f.lost
          before := .inr (hl.append _)
          tokens_eq := by rw [h', List.append_assoc, ← f.tokens_eq] }⟩
      | error pre' mid rest' hp' hl' hv hn s' =>
        refine .error (pre ++ pre') mid rest' (by rw [h', hp', List.append_assoc]) (.inr (hl.append _)) hv hn s'
    | accept F hF v s' he hh =>
      refine ⟨.done s', (Reach.tick ho).ends (Ends.tick rfl (by intro c hc; cases hc)), ?_⟩
      exact .done [] tokens rfl F hF hh s0 (.inl ⟨rfl, rfl⟩) v s' he
    | thrown s' hf => exact ⟨_, Ends.tick ho (by intro c hc; cases hc), .thrown s' hf⟩
    | error mid h' hv hn =>
      exact ⟨_, Ends.tick ho (by intro c hc; cases hc), .error [] mid rest h' (.inl rfl) hv hn s⟩

/-- The parser comes to an end. -/
theorem returns_result (act : Actions V S) {D : ℕ} (hD : 0 < D) (v0 : V) (tokens : List (Kind × V)) (s : S) :
    ∃ o, Returns act D v0 tokens s o ∧ Result act D tokens s o := by
  obtain ⟨o, h1, h2⟩ := ends_inv hD _ (inv_start act hD v0 tokens s) (Nat.lt_succ_self _)
  exact ⟨o, ends_start h1, h2⟩

theorem returns_unique {act : Actions V S} {D : ℕ} {v0 : V} {tokens : List (Kind × V)} {s : S} {o o' : Outcome V S}
    (h : Returns act D v0 tokens s o) (h' : Returns act D v0 tokens s o') : o = o' :=
  Ends.unique h h'

end Schnek.Lemma.Lemon
