import Verif.Lemma.LemonTable

/-!
# The parser executes every derivation for which the stack is large enough
-/

namespace Schnek.Lemma.Lemon

open Schnek.Lemon Schnek.Spec
open Scanner (Kind)

variable {V S : Type}

/-- tokens as the parser sees them -/
def codes (ts : List (Kind × V)) : List (ℕ × V) := ts.map fun t => (t.1.code, t.2)

theorem codes_append (a b : List (Kind × V)) : codes (a ++ b) = codes a ++ codes b := List.map_append ..

theorem run_add (act : Actions V S) (D : ℕ) (v0 : V) (n m : ℕ) (c : Conf V S) :
    run act D v0 (n + m) c = match run act D v0 n c with
      | .running c' => run act D v0 m c'
      | o => o := by
  induction n generalizing c with
  | zero => rw [Nat.zero_add]; rfl
  | succ n ih =>
    rw [Nat.succ_add]
    simp only [run]
    cases h : tick act D v0 c with
    | running c' => exact ih c'
    | done s => rfl
    | syntaxError l s => rfl
    | thrown s => rfl
    | undef => rfl

/-- the parser gets from one configuration to another -/
def Reach (act : Actions V S) (D : ℕ) (v0 : V) (c c' : Conf V S) : Prop := ∃ n, run act D v0 n c = .running c'

/-- the parser comes to an end -/
def Ends (act : Actions V S) (D : ℕ) (v0 : V) (c : Conf V S) (o : Outcome V S) : Prop :=
  (∀ c', o ≠ .running c') ∧ ∃ n, run act D v0 n c = o

theorem Reach.refl (act : Actions V S) (D : ℕ) (v0 : V) (c : Conf V S) : Reach act D v0 c c := ⟨0, rfl⟩

theorem Reach.trans {act : Actions V S} {D : ℕ} {v0 : V} {a b c : Conf V S} (h1 : Reach act D v0 a b) (h2 : Reach act D v0 b c) :
    Reach act D v0 a c := by
  obtain ⟨n, hn⟩ := h1
  obtain ⟨m, hm⟩ := h2
  exact ⟨n + m, by rw [run_add, hn]; exact hm⟩

theorem Reach.ends {act : Actions V S} {D : ℕ} {v0 : V} {a b : Conf V S} {o : Outcome V S} (h1 : Reach act D v0 a b)
    (h2 : Ends act D v0 b o) : Ends act D v0 a o := by
  obtain ⟨n, hn⟩ := h1
  obtain ⟨h0, m, hm⟩ := h2
  exact ⟨h0, n + m, by rw [run_add, hn]; exact hm⟩

theorem Reach.tick {act : Actions V S} {D : ℕ} {v0 : V} {a b : Conf V S} (h : tick act D v0 a = .running b) : Reach act D v0 a b :=
  ⟨1, by simp only [run, h]⟩

theorem Ends.tick {act : Actions V S} {D : ℕ} {v0 : V} {a : Conf V S} {o : Outcome V S} (h : tick act D v0 a = o)
    (ho : ∀ c', o ≠ .running c') : Ends act D v0 a o := by
  refine ⟨ho, 1, ?_⟩
  simp only [run, h]

/-- the parser comes to one end only -/
theorem Ends.unique {act : Actions V S} {D : ℕ} {v0 : V} {a : Conf V S} {o o' : Outcome V S} (h : Ends act D v0 a o)
    (h' : Ends act D v0 a o') : o = o' := by
  obtain ⟨h0, n, hn⟩ := h
  obtain ⟨h0', m, hm⟩ := h'
  have key : ∀ (o : Outcome V S), (∀ c', o ≠ .running c') → ∀ n k, run act D v0 n a = o → run act D v0 (n + k) a = o := by
    intro o ho n k h
    rw [run_add, h]
    cases o with
    | running c => exact absurd rfl (ho c)
    | _ => rfl
  rw [← key o h0 n m hn, Nat.add_comm, key o' h0' m n hm]

theorem le_height (F : Forest V) (h : ℕ) : h ≤ F.height h := by
  induction F generalizing h with
  | nil => exact le_refl _
  | tok k v rest ih => exact le_trans (Nat.le_succ h) (ih (h + 1))
  | node r kids rest _ ih => exact le_trans (le_trans (Nat.le_succ h) (ih (h + 1))) (le_max_right _ _)

theorem first_yield (F : Forest V) (hF : F.Valid) {X : Sym} {l : List Sym} (h : F.syms = X :: l) :
    ∃ k v t, F.yield = (k, v) :: t ∧ k.code ∈ first (symCode X) := by
  induction F generalizing X l with
  | nil => cases h
  | tok k v rest _ =>
    simp only [Forest.syms, List.cons.injEq] at h
    refine ⟨k, v, rest.yield, rfl, ?_⟩
    rw [← h.1]
    have : k.code < 23 := lt_trans (code_lt k) (by decide)
    simp only [symCode, first, this, if_true, List.mem_singleton]
  | node r kids rest ih _ =>
    simp only [Forest.syms, List.cons.injEq] at h
    obtain ⟨hk, hv, hr⟩ := hF
    obtain ⟨Y, l', hY⟩ : ∃ Y l', rhs r = Y :: l' := by
      cases hh : rhs r with
      | nil => exact absurd hh (rhs_ne_nil r)
      | cons Y l' => exact ⟨Y, l', rfl⟩
    obtain ⟨k, v, t, hy, hf⟩ := ih hv (hk.trans hY)
    refine ⟨k, v, t ++ rest.yield, by rw [Forest.yield, hy]; rfl, ?_⟩
    rw [← h.1]
    show _ ∈ first (ntCode (lhs r))
    rw [← lhsC_eq]
    apply first_rule r.isLt
    rw [rhsC_eq, hY]
    exact hf

theorem shift_ok {D : ℕ} {stack : List (Entry V)} (h : stack.length + 1 ≤ D) (e : Entry V) : shift D stack e = e :: stack := by
  unfold shift
  rw [if_neg (by omega)]

theorem tick_shift {act : Actions V S} {D : ℕ} {v0 : V} {top : Entry V} {below : List (Entry V)} {b : ℕ} {w : V}
    {rest : List (ℕ × V)} {s : S} (hg : findShift top.state b < nState) (hb : b ≠ 0) :
    tick act D v0 ⟨top :: below, (b, w) :: rest, s⟩ =
      .running ⟨shift D (top :: below) ⟨findShift top.state b, b, w⟩, rest, s⟩ := by
  simp only [tick, List.headD_cons, List.tail_cons, hg, hb, if_true, if_false]

/-- A reduction, with the values on top of the stack. -/
theorem tick_reduce {act : Actions V S} {D : ℕ} {v0 : V} {es : List (Entry V)} {top : Entry V} {below : List (Entry V)}
    {b : ℕ} {w : V} {rest : List (ℕ × V)} {s : S} {r : ℕ} (hr : r < 48) (hes : es.length = (rhsC r).length)
    (hshift : findShift ((es ++ top :: below).headD top).state b = nState + r) :
    tick act D v0 ⟨es ++ top :: below, (b, w) :: rest, s⟩ =
      match act r (es.reverse.map Entry.minor) s with
      | (none, s') => .thrown s'
      | (some v, s') =>
        if findReduce top.state (lhsC r) < nState then
          match shift D (top :: below) ⟨findReduce top.state (lhsC r), lhsC r, v⟩ with
          | [] => .running ⟨[], rest, s'⟩
          | e :: l => .running ⟨e :: l, (b, w) :: rest, s'⟩
        else if findReduce top.state (lhsC r) = acceptAction then .running ⟨[], rest, s'⟩
        else .undef := by
  have hstk : ∃ e l, es ++ top :: below = e :: l := by
    cases es with
    | nil => exact ⟨_, _, rfl⟩
    | cons e l => exact ⟨_, _, rfl⟩
  obtain ⟨e, l, hel⟩ := hstk
  have h1 : ((es ++ top :: below).headD ⟨0, 0, v0⟩) = (es ++ top :: below).headD top := by rw [hel]; rfl
  have h2 : (es ++ top :: below).headD top :: (es ++ top :: below).tail = es ++ top :: below := by rw [hel]; rfl
  unfold tick
  simp only [h1, hshift, h2]
  rw [if_neg (by omega), if_pos (by unfold nRule; omega)]
  have h3 : nState + r - nState = r := by omega
  rw [h3]
  unfold reduce
  simp only [ruleInfo r hr]
  rw [← hes, List.drop_left, List.take_left]
  rfl

theorem rhsC_get {r : Fin 48} {pre l : List Sym} {X : Sym} (h : rhs r = pre ++ X :: l) : (rhsC r)[pre.length]? = some (symCode X) := by
  rw [rhsC_eq, h, List.map_append, List.getElem?_append_right (by simp)]
  simp

theorem rhsC_get_next {r : Fin 48} {pre l : List Sym} {X : Sym} (h : rhs r = pre ++ X :: l) :
    (rhsC r)[pre.length + 1]? = l.head?.map symCode := by
  rw [rhsC_eq, h, List.map_append, List.getElem?_append_right (by simp)]
  cases l <;> simp

/-- Reading the tokens of a derivation. -/
theorem forest_run (act : Actions V S) (D : ℕ) (v0 : V) (F : Forest V) (hF : F.Valid) (r : Fin 48) (pre : List Sym) (a : ℕ)
    (top : Entry V) (below : List (Entry V)) (s : S) (w : V) (rest : List (ℕ × V)) (hsyms : rhs r = pre ++ F.syms)
    (hhas : has top.state r pre.length a = true) (hD : F.height (below.length + 1) ≤ D) :
    match F.eval act s with
    | (some vs, s') => ∃ es : List (Entry V),
        Reach act D v0 ⟨top :: below, codes F.yield ++ (a, w) :: rest, s⟩ ⟨es ++ top :: below, (a, w) :: rest, s'⟩ ∧
        es.reverse.map Entry.minor = vs ∧ es.length = F.syms.length ∧
        has ((es ++ top :: below).headD top).state r (rhsC r).length a = true
    | (none, s') => Ends act D v0 ⟨top :: below, codes F.yield ++ (a, w) :: rest, s⟩ (.thrown s') := by
  induction F generalizing r pre a top below s w rest with
  | nil =>
    refine ⟨[], Reach.refl .., rfl, rfl, ?_⟩
    have : pre.length = (rhsC r).length := by
      rw [rhsC_eq, hsyms]
      simp [Forest.syms]
    rw [← this]
    exact hhas
  | tok k v F ih =>
    have hX := rhsC_get (r := r) (pre := pre) (l := F.syms) (X := .t k) hsyms
    obtain ⟨hg, hh⟩ := goto_next hhas hX (by show k.code ≠ 22; have := code_lt k; omega)
    have hgo : goto top.state (symCode (.t k)) = findShift top.state k.code := by
      unfold goto symCode
      rw [if_pos (code_lt k)]
    rw [hgo] at hg hh
    have hlen := le_height F (below.length + 1 + 1)
    have hD' : F.height (below.length + 1 + 1) ≤ D := hD
    let e : Entry V := ⟨findShift top.state k.code, k.code, v⟩
    have hstep : Reach act D v0 ⟨top :: below, codes (Forest.tok k v F).yield ++ (a, w) :: rest, s⟩
        ⟨e :: top :: below, codes F.yield ++ (a, w) :: rest, s⟩ := by
      apply Reach.tick
      have hs : shift D (top :: below) e = e :: top :: below := shift_ok (by simp only [List.length_cons]; omega) e
      rw [← hs]
      exact tick_shift hg (Nat.ne_of_gt (code_pos k))
    have := ih hF r (pre ++ [.t k]) a e (top :: below) s w rest (by rw [hsyms]; simp [Forest.syms])
      (by rw [List.length_append]; exact hh) hD'
    simp only [Forest.eval]
    revert this
    rcases F.eval act s with ⟨_ | vs, s'⟩
    · intro h
      exact hstep.ends h
    · rintro ⟨es, h1, h2, h3, h4⟩
      refine ⟨es ++ [e], ?_, ?_, ?_, ?_⟩
      · rw [List.append_assoc]
        exact hstep.trans h1
      · rw [List.reverse_append]
        simp only [List.reverse_cons, List.reverse_nil, List.nil_append, List.cons_append, List.map_cons, h2]
        rfl
      · rw [List.length_append, h3]
        rfl
      · rw [List.append_assoc]
        have : (es ++ ([e] ++ top :: below)).headD top = (es ++ e :: top :: below).headD e := by
          cases es <;> rfl
        rw [this]
        exact h4
  | node r2 kids F ihk ih =>
    obtain ⟨hk, hkv, hFv⟩ := hF
    have hl2 := lhsC_eq r2
    have hge : 23 ≤ lhsC r2 := by rw [hl2]; exact ntCode_ge _
    have hX := rhsC_get (r := r) (pre := pre) (l := F.syms) (X := .n (lhs r2)) hsyms
    have hX' : (rhsC r)[pre.length]? = some (lhsC r2) := by rw [hX, hl2]; rfl
    obtain ⟨hg, hh⟩ := goto_next hhas hX' (by omega)
    have hgo : goto top.state (lhsC r2) = findReduce top.state (lhsC r2) := by
      unfold goto
      rw [if_neg (by omega)]
    rw [hgo] at hg hh
    have hD1 : kids.height (below.length + 1) ≤ D := le_trans (le_max_left _ _) hD
    have hD2 : F.height (below.length + 1 + 1) ≤ D := le_trans (le_max_right _ _) hD
    have hlen := le_height F (below.length + 1 + 1)
    -- the token after the subtrees
    obtain ⟨b, wb, restb, hb, hhas2⟩ : ∃ b wb restb, codes F.yield ++ (a, w) :: rest = (b, wb) :: restb ∧
        has top.state r2 0 b = true := by
      have hnext := rhsC_get_next (r := r) (pre := pre) (l := F.syms) (X := .n (lhs r2)) hsyms
      cases hFs : F.syms with
      | nil =>
        rw [hFs] at hnext
        have hFn : F = .nil := by
          cases F with
          | nil => rfl
          | tok _ _ _ => cases hFs
          | node _ _ _ => cases hFs
        subst hFn
        refine ⟨a, w, rest, rfl, closure hhas hX' r2.isLt hge ?_⟩
        rw [hnext]
        rfl
      | cons Y l =>
        rw [hFs] at hnext
        obtain ⟨k, v, t, hy, hf⟩ := first_yield F hFv hFs
        refine ⟨k.code, v, codes t ++ (a, w) :: rest, by rw [hy]; rfl, closure hhas hX' r2.isLt hge ?_⟩
        rw [hnext]
        exact hf
    have hyield : codes (Forest.node r2 kids F).yield ++ (a, w) :: rest = codes kids.yield ++ (b, wb) :: restb := by
      rw [Forest.yield, codes_append, List.append_assoc, hb]
    rw [hyield]
    have h1 := ihk hkv r2 [] b top below s wb restb hk.symm hhas2 hD1
    simp only [Forest.eval]
    revert h1
    rcases kids.eval act s with ⟨_ | ws, s1⟩
    · intro h
      exact h
    · rintro ⟨es, hr1, hm1, hl1, hh1⟩
      have hlen1 : es.length = (rhsC r2).length := by rw [hl1, hk, rhsC_eq, List.length_map]
      have htick := tick_reduce (act := act) (D := D) (v0 := v0) (es := es) (top := top) (below := below) (b := b) (w := wb)
        (rest := restb) (s := s1) r2.isLt hlen1 (reduce_at_end hh1)
      rw [hm1] at htick
      simp only
      revert htick
      rcases act r2 ws s1 with ⟨_ | v, s2⟩
      · intro htick
        exact hr1.ends (Ends.tick htick (by intro c h; cases h))
      · intro htick
        let e : Entry V := ⟨findReduce top.state (lhsC r2), lhsC r2, v⟩
        have hs : shift D (top :: below) e = e :: top :: below := shift_ok (by simp only [List.length_cons]; omega) e
        have hstep : Reach act D v0 ⟨top :: below, codes kids.yield ++ (b, wb) :: restb, s⟩
            ⟨e :: top :: below, codes F.yield ++ (a, w) :: rest, s2⟩ := by
          refine hr1.trans (Reach.tick ?_)
          rw [htick]
          simp only
          rw [if_pos hg, hs, hb]
        have := ih hFv r (pre ++ [.n (lhs r2)]) a e (top :: below) s2 w rest (by rw [hsyms]; simp [Forest.syms])
          (by rw [List.length_append]; exact hh) hD2
        simp only
        revert this
        rcases F.eval act s2 with ⟨_ | vs, s'⟩
        · intro h
          exact hstep.ends h
        · rintro ⟨es', h1, h2, h3, h4⟩
          refine ⟨es' ++ [e], ?_, ?_, ?_, ?_⟩
          · rw [List.append_assoc]
            exact hstep.trans h1
          · rw [List.reverse_append]
            simp only [List.reverse_cons, List.reverse_nil, List.nil_append, List.cons_append, List.map_cons, h2]
            rfl
          · rw [List.length_append, h3]
            rfl
          · rw [List.append_assoc]
            have : (es' ++ ([e] ++ top :: below)).headD top = (es' ++ e :: top :: below).headD e := by
              cases es' <;> rfl
            rw [this]
            exact h4

/-- The whole deck. -/
theorem deck_run (act : Actions V S) (D : ℕ) (v0 : V) (F : Forest V) (tokens : List (Kind × V))
    (hF : F.Derives [.n .deck] tokens) (hD : F.height 1 ≤ D) (s : S) :
    Returns act D v0 tokens s (match F.eval act s with
      | (some _, s') => .done s'
      | (none, s') => .thrown s') := by
  obtain ⟨hv, hs, hy⟩ := hF
  cases F with
  | nil => cases hs
  | tok k v rest => cases hs
  | node r kids rest =>
    have hr0 : lhs r = .deck ∧ rest.syms = [] := by
      simp only [Forest.syms, List.cons.injEq, Sym.n.injEq] at hs
      exact hs
    have hrest : rest = .nil := by
      cases rest with
      | nil => rfl
      | tok _ _ _ => cases hr0.2
      | node _ _ _ => cases hr0.2
    subst hrest
    have hr : r = 0 := by
      have : ∀ r : Fin 48, lhs r = .deck → r = 0 := by decide +kernel
      exact this r hr0.1
    subst hr
    obtain ⟨hk, hkv, -⟩ := hv
    have hy' : kids.yield = tokens := by
      rw [← hy]
      simp [Forest.yield]
    have h1 := forest_run act D v0 kids hkv 0 [] 0 ⟨0, 0, v0⟩ [] s v0 [] hk.symm has_start (le_trans (le_max_left _ _) hD)
    have hstart : ∀ o, Ends act D v0 ⟨[⟨0, 0, v0⟩], codes kids.yield ++ [(0, v0)], s⟩ o → Returns act D v0 tokens s o := by
      rintro o ⟨h0, n, hn⟩
      refine ⟨h0, n, ?_⟩
      unfold start
      rw [← hy']
      cases n with
      | zero => exact absurd hn.symm (h0 _)
      | succ n =>
        rw [← hn]
        rfl
    apply hstart
    simp only [Forest.eval]
    revert h1
    rcases kids.eval act s with ⟨_ | ws, s1⟩
    · intro h
      exact h
    · rintro ⟨es, hr1, hm1, hl1, hh1⟩
      have hlen1 : es.length = (rhsC (0 : Fin 48)).length := by rw [hl1, hk, rhsC_eq, List.length_map]
      have htick := tick_reduce (act := act) (D := D) (v0 := v0) (es := es) (top := ⟨0, 0, v0⟩) (below := []) (b := 0) (w := v0)
        (rest := []) (s := s1) (0 : Fin 48).isLt hlen1 (reduce_at_end hh1)
      rw [hm1] at htick
      simp only
      revert htick
      rcases act (0 : Fin 48) ws s1 with ⟨_ | v, s2⟩
      · intro htick
        exact hr1.ends (Ends.tick htick (by intro c h; cases h))
      · intro htick
        refine (hr1.trans (Reach.tick ?_)).ends (b := ⟨[], [], s2⟩) (Ends.tick rfl (by intro c h; cases h))
        rw [htick]
        have h0 : findReduce 0 (lhsC (0 : Fin 48)) = acceptAction := accept_zero
        simp only [h0]
        rfl

end Schnek.Lemma.Lemon
