import Verif.Lemma.LemonComplete
import Verif.Lemma.LemonSound

/-!
# A derivation for which the stack is too small ends with a syntax error
-/

namespace Schnek.Lemma.Lemon

open Schnek.Lemon Schnek.Spec
open Scanner (Kind)

variable {V S : Type}

/-- states that can follow those of a list -/
def succs (l : List ℕ) : List ℕ :=
  (List.range nState).filter fun s' => l.any fun s => (List.range 40).any fun X => X != 0 && X != 22 && goto s X == s'

/-- states that can be the one with number `n` on the stack, counted from 0 -/
def levels : ℕ → List ℕ
  | 0 => [0]
  | n + 1 => succs (levels n)

/-- the states that can be above the first four -/
def deep : List ℕ :=
  [1, 2, 3, 4, 6, 7, 8, 9, 10, 11, 12, 13, 15, 16, 17, 18, 21, 22, 23, 24, 25, 30, 31, 32, 33, 37, 44, 45, 46, 47, 48, 49, 50, 51, 52,
   53, 54, 55, 56, 57, 58, 59, 60, 61, 62, 63, 64, 65, 66, 67, 68, 69, 70]

/-- a token that can be read in a state -/
def viaShift (s b : ℕ) : Bool := (items.getD s []).any fun i => (rhsC i.rule)[i.pos]? == some b

/-- a token for which a rule can be reduced in a state -/
def viaEnd (s b : ℕ) : Bool := (items.getD s []).any fun i => i.pos == (rhsC i.rule).length && i.la.contains b

/-- what can follow after a token that is lost does not begin a statement -/
def lostOk (s k b : ℕ) : Bool :=
  let s' := goto s k
  (b != 0 && findShift 0 b == errorAction) ||
    (!viaEnd s' b && (!viaShift s' b ||
      b == 10 && (List.range 22).all fun c => !(viaEnd (goto s' 10) c || viaShift (goto s' 10) c) ||
        (c != 0 && findShift (findShift 0 10) c == errorAction)))

theorem deep_four : (levels 4).all (fun s => deep.contains s) = true := by decide +kernel

theorem deep_closed : (succs deep).all (fun s => deep.contains s) = true := by decide +kernel

theorem lostOk_true : (deep.all fun s => (List.range 22).all fun k => !viaShift s k || (List.range 22).all (lostOk s k)) = true := by
  decide +kernel

theorem ident_shift : findShift 0 10 < nState := by decide +kernel

/-- the level of a state on the stack -/
inductive Level : ℕ → ℕ → Prop
  | zero : Level 0 0
  | succ {n s X : ℕ} (h : Level n s) (h0 : X ≠ 0) (hX : X < 40) (hne : X ≠ 22) (hg : goto s X < nState) : Level (n + 1) (goto s X)

theorem mem_succs {l : List ℕ} {s X : ℕ} (hs : s ∈ l) (h0 : X ≠ 0) (hX : X < 40) (hne : X ≠ 22) (hg : goto s X < nState) :
    goto s X ∈ succs l := by
  unfold succs
  rw [List.mem_filter]
  refine ⟨List.mem_range.mpr hg, List.any_eq_true.mpr ⟨s, hs, List.any_eq_true.mpr ⟨X, List.mem_range.mpr hX, ?_⟩⟩⟩
  simp [h0, hne]

theorem Level.mem {n s : ℕ} (h : Level n s) : s ∈ levels n := by
  induction h with
  | zero => exact List.mem_singleton.mpr rfl
  | succ h h0 hX hne hg ih => exact mem_succs ih h0 hX hne hg

theorem Level.deep {n s : ℕ} (h : Level n s) (hn : 4 ≤ n) : s ∈ deep := by
  induction n, hn using Nat.le_induction generalizing s with
  | base =>
    have := List.all_eq_true.mp deep_four s h.mem
    simpa using this
  | succ n hn ih =>
    cases h with
    | succ h h0 hX hne hg =>
      have := List.all_eq_true.mp deep_closed _ (mem_succs (ih h) h0 hX hne hg)
      simpa using this

theorem symCode_lt (X : Sym) : symCode X < 40 := by
  cases X with
  | t k => exact lt_trans (code_lt k) (by decide)
  | n N => exact ntCode_lt N
  | error => decide

theorem has_viaShift {s r p a b : ℕ} (h : has s r p a = true) (hb : (rhsC r)[p]? = some b) : viaShift s b = true := by
  obtain ⟨i, hi, rfl, rfl, -⟩ := has_item h
  exact List.any_eq_true.mpr ⟨i, hi, by simp [hb]⟩

theorem has_viaEnd {s r a : ℕ} (h : has s r (rhsC r).length a = true) : viaEnd s a = true := by
  obtain ⟨i, hi, rfl, hp, ha⟩ := has_item h
  exact List.any_eq_true.mpr ⟨i, hi, by simp [hp, ha]⟩

/-- the rule that the next token belongs to -/
theorem descend (F : Forest V) (hF : F.Valid) (hne : F ≠ .nil) (r : Fin 48) (pre : List Sym) (a : ℕ) (s : ℕ) (w : V)
    (rest : List (ℕ × V)) (hsyms : rhs r = pre ++ F.syms) (hhas : has s r pre.length a = true) (ha : a < 22) (hz : a ≠ 0 → rest ≠ []) :
    ∃ (k : Kind) (v : V) (r' : Fin 48) (pre' : List Sym) (a' : ℕ) (F' : Forest V) (w' : V) (rest' : List (ℕ × V)), F'.Valid ∧ a' < 22 ∧ (a' ≠ 0 → rest' ≠ []) ∧
      rhs r' = pre' ++ .t k :: F'.syms ∧ has s r' pre'.length a' = true ∧
      codes F.yield ++ (a, w) :: rest = (k.code, v) :: codes F'.yield ++ (a', w') :: rest' := by
  induction F generalizing r pre a w rest with
  | nil => exact absurd rfl hne
  | tok k v F _ => exact ⟨k, v, r, pre, a, F, w, rest, hF, ha, hz, hsyms, hhas, rfl⟩
  | node r2 kids F ihk _ =>
    obtain ⟨hk, hkv, hFv⟩ := hF
    have hl2 := lhsC_eq r2
    have hge : 23 ≤ lhsC r2 := by rw [hl2]; exact ntCode_ge _
    have hX := rhsC_get (r := r) (pre := pre) (l := F.syms) (X := .n (lhs r2)) hsyms
    have hX' : (rhsC r)[pre.length]? = some (lhsC r2) := by rw [hX, hl2]; rfl
    have hkne : kids ≠ .nil := by
      rintro rfl
      exact rhs_ne_nil r2 hk.symm
    obtain ⟨b, wb, restb, hb, hhas2, hb22, hbz⟩ : ∃ b wb restb, codes F.yield ++ (a, w) :: rest = (b, wb) :: restb ∧
        has s r2 0 b = true ∧ b < 22 ∧ (b ≠ 0 → restb ≠ []) := by
      have hnext := rhsC_get_next (r := r) (pre := pre) (l := F.syms) (X := .n (lhs r2)) hsyms
      cases hFs : F.syms with
      | nil =>
        rw [hFs] at hnext
        have hFn : F = .nil := by
          cases F with
          | nil => rfl
          | tok _ _ _ => cases hFs
          | node _ _ _ => cases hFs
        subst hFn
        refine ⟨a, w, rest, rfl, closure hhas hX' r2.isLt hge ?_, ha, hz⟩
        rw [hnext]
        rfl
      | cons Y l =>
        rw [hFs] at hnext
        obtain ⟨k, v, t, hy, hf⟩ := first_yield F hFv hFs
        refine ⟨k.code, v, codes t ++ (a, w) :: rest, by rw [hy]; rfl, closure hhas hX' r2.isLt hge ?_, code_lt k, by simp⟩
        rw [hnext]
        exact hf
    rw [Forest.yield, codes_append, List.append_assoc, hb]
    exact ihk hkv hkne r2 [] b wb restb hk.symm hhas2 hb22 hbz

/-- the next token can be read, or a rule can be reduced -/
theorem next_via (F : Forest V) (hF : F.Valid) (r : Fin 48) (pre : List Sym) (a : ℕ) (s : ℕ) (w : V)
    (rest : List (ℕ × V)) (hsyms : rhs r = pre ++ F.syms) (hhas : has s r pre.length a = true) (ha : a < 22) (hz : a ≠ 0 → rest ≠ []) :
    (F = .nil ∧ viaEnd s a = true) ∨
    ∃ (k : Kind) (v : V) (r' : Fin 48) (pre' : List Sym) (a' : ℕ) (F' : Forest V) (w' : V) (rest' : List (ℕ × V)), F'.Valid ∧ a' < 22 ∧ (a' ≠ 0 → rest' ≠ []) ∧
      rhs r' = (pre' ++ [.t k]) ++ F'.syms ∧ viaShift s k.code = true ∧ has (goto s k.code) r' (pre' ++ [Sym.t k]).length a' = true ∧
      codes F.yield ++ (a, w) :: rest = (k.code, v) :: codes F'.yield ++ (a', w') :: rest' := by
  by_cases hn : F = .nil
  · subst hn
    refine Or.inl ⟨rfl, has_viaEnd (r := r) ?_⟩
    have : pre.length = (rhsC r).length := by
      rw [rhsC_eq, hsyms]
      simp [Forest.syms]
    rw [← this]
    exact hhas
  · obtain ⟨k, v, r', pre', a', F', w', rest', hv, ha', hz', hs, hh, he⟩ := descend F hF hn r pre a s w rest hsyms hhas ha hz
    have hX := rhsC_get (r := r') (pre := pre') (l := F'.syms) (X := .t k) hs
    obtain ⟨hg, hh'⟩ := goto_next hh hX (by show k.code ≠ 22; have := code_lt k; omega)
    refine Or.inr ⟨k, v, r', pre', a', F', w', rest', hv, ha', hz', by rw [hs]; simp, has_viaShift hh hX, ?_, he⟩
    rw [List.length_append]
    exact hh'

theorem tick_error {act : Actions V S} {D : ℕ} {v0 : V} {stack : List (Entry V)} {b : ℕ} {w : V} {rest : List (ℕ × V)} {s : S}
    (h : findShift (stack.headD ⟨0, 0, v0⟩).state b = errorAction) :
    tick act D v0 ⟨stack, (b, w) :: rest, s⟩ = .syntaxError rest.length s := by
  unfold tick
  simp only [h]
  rw [if_neg (by decide), if_neg (by decide), if_pos trivial]

/-- After a token has been lost in a state that is not among the first four, the parser reports a syntax error. -/
theorem lost_error (act : Actions V S) {D : ℕ} (hD : 2 ≤ D) (v0 : V) (F : Forest V) (hF : F.Valid) (r : Fin 48) (pre : List Sym)
    (a : ℕ) (k : Kind) (st : ℕ) (s : S) (w : V) (rest : List (ℕ × V)) (hsyms : rhs r = pre ++ .t k :: F.syms)
    (hhas : has st r pre.length a = true) (ha : a < 22) (hz : a ≠ 0 → rest ≠ []) (hdeep : st ∈ deep) :
    ∃ n, Ends act D v0 ⟨[], codes F.yield ++ (a, w) :: rest, s⟩ (.syntaxError (n + 1) s) := by
  have hX := rhsC_get (r := r) (pre := pre) (l := F.syms) (X := .t k) hsyms
  obtain ⟨hg, hh⟩ := goto_next hhas hX (by show k.code ≠ 22; have := code_lt k; omega)
  have hok := List.all_eq_true.mp lostOk_true st hdeep
  have hok2 := List.all_eq_true.mp hok k.code (List.mem_range.mpr (code_lt k))
  have hvk : viaShift st k.code = true := has_viaShift hhas hX
  rw [hvk, Bool.not_true, Bool.false_or, List.all_eq_true] at hok2
  have herr : ∀ (b : ℕ) (wb : V) (l : List (ℕ × V)), findShift 0 b = errorAction → l ≠ [] →
      ∃ n, Ends act D v0 ⟨[], (b, wb) :: l, s⟩ (.syntaxError (n + 1) s) := by
    intro b wb l hb hl
    cases l with
    | nil => exact absurd rfl hl
    | cons x l => exact ⟨l.length, Ends.tick (tick_error hb) (by intro c h; cases h)⟩
  rcases next_via F hF r (pre ++ [.t k]) a (goto st k.code) w rest (by rw [hsyms]; simp)
      (by rw [List.length_append]; exact hh) ha hz with ⟨rfl, he⟩ | ⟨k1, v1, r1, pre1, a1, F1, w1, rest1, hv1, ha1, hz1, hs1, hvs, hh1, htok⟩
  · have := hok2 a (List.mem_range.mpr ha)
    unfold lostOk at this
    simp only [he, Bool.not_true, Bool.false_and, Bool.or_false, beq_iff_eq, Bool.and_eq_true, bne_iff_ne] at this
    exact herr _ _ _ this.2 (hz this.1)
  · rw [htok]
    have h1 := hok2 k1.code (List.mem_range.mpr (code_lt k1))
    by_cases he : findShift 0 k1.code = errorAction
    · exact herr _ _ _ he (by simp)
    · have hne : (findShift 0 k1.code == errorAction) = false := by simpa using he
      unfold lostOk at h1
      simp only [hvs, hne, Bool.and_false, Bool.false_or, Bool.not_true, Bool.and_eq_true, beq_iff_eq, List.all_eq_true] at h1
      obtain ⟨-, hk1, hc⟩ := h1
      rw [hk1] at hh1 ⊢
      -- the identifier is read, the token after it is an error
      have hq22 := ident_shift
      generalize hq : findShift 0 10 = q at hc hq22
      have hstep : Reach act D v0 ⟨[], (10, v1) :: codes F1.yield ++ (a1, w1) :: rest1, s⟩
          ⟨[⟨q, 10, v1⟩, ⟨0, 0, v0⟩], codes F1.yield ++ (a1, w1) :: rest1, s⟩ := by
        apply Reach.tick
        have hsh : shift D [(⟨0, 0, v0⟩ : Entry V)] ⟨q, 10, v1⟩ = [⟨q, 10, v1⟩, ⟨0, 0, v0⟩] :=
          shift_ok (by simpa using hD) _
        rw [← hsh]
        rw [← hq]
        exact tick_shift (v0 := v0) (top := ⟨0, 0, v0⟩) (below := []) ident_shift (by decide)
      have herr2 : ∀ (c : ℕ) (wc : V) (l : List (ℕ × V)), c < 22 → (c ≠ 0 → l ≠ []) →
          (viaEnd (goto (goto st k.code) 10) c || viaShift (goto (goto st k.code) 10) c) = true →
          ∃ n, Ends act D v0 ⟨[⟨q, 10, v1⟩, ⟨0, 0, v0⟩], (c, wc) :: l, s⟩ (.syntaxError (n + 1) s) := by
        intro c wc l hc22 hcz hvia
        have := hc c (List.mem_range.mpr hc22)
        rw [hvia, Bool.not_true, Bool.false_or, Bool.and_eq_true, bne_iff_ne, beq_iff_eq] at this
        have hl := hcz this.1
        have hst : findShift (([⟨q, 10, v1⟩, ⟨0, 0, v0⟩] : List (Entry V)).headD ⟨0, 0, v0⟩).state c = errorAction := by
          exact this.2
        cases l with
        | nil => exact absurd rfl hl
        | cons x l => exact ⟨l.length, Ends.tick (tick_error hst) (by intro c h; cases h)⟩
      have hend : ∃ n, Ends act D v0 ⟨[⟨q, 10, v1⟩, ⟨0, 0, v0⟩], codes F1.yield ++ (a1, w1) :: rest1, s⟩
          (.syntaxError (n + 1) s) := by
        rcases next_via F1 hv1 r1 (pre1 ++ [.t k1]) a1 (goto (goto st k.code) 10) w1 rest1 hs1 hh1 ha1 hz1 with
          ⟨rfl, he2⟩ | ⟨k2, v2, r2, pre2, a2, F2, w2, rest2, hv2, ha2, hz2, hs2, hvs2, hh2, htok2⟩
        · exact herr2 a1 w1 rest1 ha1 hz1 (by rw [he2]; rfl)
        · rw [htok2]
          exact herr2 _ _ _ (code_lt k2) (by simp) (by rw [hvs2, Bool.or_true])
      obtain ⟨n, hn⟩ := hend
      exact ⟨n, hstep.ends hn⟩

/-- Reading the tokens of a derivation for which the stack is too small. -/
theorem forest_overflow (act : Actions V S) {D : ℕ} (hD5 : 5 ≤ D) (v0 : V) (F : Forest V) (hF : F.Valid) (r : Fin 48)
    (pre : List Sym) (a : ℕ) (top : Entry V) (below : List (Entry V)) (s : S) (w : V) (rest : List (ℕ × V))
    (hsyms : rhs r = pre ++ F.syms) (hhas : has top.state r pre.length a = true) (ha : a < 22) (hz : a ≠ 0 → rest ≠ []) (hlev : Level below.length top.state)
    (hlen : below.length + 1 ≤ D) (hD : D < F.height (below.length + 1)) :
    (∃ n s', Ends act D v0 ⟨top :: below, codes F.yield ++ (a, w) :: rest, s⟩ (.syntaxError (n + 1) s')) ∨
    ∃ s', F.eval act s = (none, s') ∧ Ends act D v0 ⟨top :: below, codes F.yield ++ (a, w) :: rest, s⟩ (.thrown s') := by
  induction F generalizing r pre a top below s w rest with
  | nil =>
    simp only [Forest.height] at hD
    omega
  | tok k v F ih =>
    have hX := rhsC_get (r := r) (pre := pre) (l := F.syms) (X := .t k) hsyms
    obtain ⟨hg, hh⟩ := goto_next hhas hX (by show k.code ≠ 22; have := code_lt k; omega)
    have hlev' : Level (below.length + 1) (goto top.state (symCode (.t k))) :=
      hlev.succ (Nat.ne_of_gt (code_pos k)) (symCode_lt _) (by show k.code ≠ 22; have := code_lt k; omega) hg
    have hgo : goto top.state (symCode (.t k)) = findShift top.state k.code := by
      unfold goto symCode
      rw [if_pos (code_lt k)]
    rw [hgo] at hg hh hlev'
    let e : Entry V := ⟨findShift top.state k.code, k.code, v⟩
    by_cases hfit : below.length + 1 + 1 ≤ D
    · have hstep : Reach act D v0 ⟨top :: below, codes (Forest.tok k v F).yield ++ (a, w) :: rest, s⟩
          ⟨e :: top :: below, codes F.yield ++ (a, w) :: rest, s⟩ := by
        apply Reach.tick
        have hs : shift D (top :: below) e = e :: top :: below := shift_ok (by simpa using hfit) e
        rw [← hs]
        exact tick_shift hg (Nat.ne_of_gt (code_pos k))
      rcases ih hF r (pre ++ [.t k]) a e (top :: below) s w rest (by rw [hsyms]; simp [Forest.syms])
        (by rw [List.length_append]; exact hh) ha hz hlev' hfit hD with ⟨n, s', h⟩ | ⟨s', he, h⟩
      · exact Or.inl ⟨n, s', hstep.ends h⟩
      · refine Or.inr ⟨s', ?_, hstep.ends h⟩
        simp only [Forest.eval, he]
    · have hstep : Reach act D v0 ⟨top :: below, codes (Forest.tok k v F).yield ++ (a, w) :: rest, s⟩
          ⟨[], codes F.yield ++ (a, w) :: rest, s⟩ := by
        apply Reach.tick
        have hs : shift D (top :: below) e = [] := by
          unfold shift
          rw [if_pos (by simp only [List.length_cons]; omega)]
        rw [← hs]
        exact tick_shift hg (Nat.ne_of_gt (code_pos k))
      obtain ⟨n, hn⟩ := lost_error act (D := D) (by omega) v0 F hF r pre a k top.state s w rest hsyms hhas ha hz (hlev.deep (by omega))
      exact Or.inl ⟨n, s, hstep.ends hn⟩
  | node r2 kids F ihk ih =>
    obtain ⟨hk, hkv, hFv⟩ := hF
    have hl2 := lhsC_eq r2
    have hge : 23 ≤ lhsC r2 := by rw [hl2]; exact ntCode_ge _
    have hX := rhsC_get (r := r) (pre := pre) (l := F.syms) (X := .n (lhs r2)) hsyms
    have hX' : (rhsC r)[pre.length]? = some (lhsC r2) := by rw [hX, hl2]; rfl
    obtain ⟨hg, hh⟩ := goto_next hhas hX' (by omega)
    have hlev' : Level (below.length + 1) (goto top.state (lhsC r2)) :=
      hlev.succ (by omega) (by rw [hl2]; exact ntCode_lt _) (by omega) hg
    have hgo : goto top.state (lhsC r2) = findReduce top.state (lhsC r2) := by
      unfold goto
      rw [if_neg (by omega)]
    rw [hgo] at hg hh hlev'
    -- the token after the subtrees
    obtain ⟨b, wb, restb, hb, hhas2, hb22, hbz⟩ : ∃ b wb restb, codes F.yield ++ (a, w) :: rest = (b, wb) :: restb ∧
        has top.state r2 0 b = true ∧ b < 22 ∧ (b ≠ 0 → restb ≠ []) := by
      have hnext := rhsC_get_next (r := r) (pre := pre) (l := F.syms) (X := .n (lhs r2)) hsyms
      cases hFs : F.syms with
      | nil =>
        rw [hFs] at hnext
        have hFn : F = .nil := by
          cases F with
          | nil => rfl
          | tok _ _ _ => cases hFs
          | node _ _ _ => cases hFs
        subst hFn
        refine ⟨a, w, rest, rfl, closure hhas hX' r2.isLt hge ?_, ha, hz⟩
        rw [hnext]
        rfl
      | cons Y l =>
        rw [hFs] at hnext
        obtain ⟨k, v, t, hy, hf⟩ := first_yield F hFv hFs
        refine ⟨k.code, v, codes t ++ (a, w) :: rest, by rw [hy]; rfl, closure hhas hX' r2.isLt hge ?_, code_lt k, by simp⟩
        rw [hnext]
        exact hf
    have hyield : codes (Forest.node r2 kids F).yield ++ (a, w) :: rest = codes kids.yield ++ (b, wb) :: restb := by
      rw [Forest.yield, codes_append, List.append_assoc, hb]
    rw [hyield]
    by_cases hkD : D < kids.height (below.length + 1)
    · rcases ihk hkv r2 [] b top below s wb restb hk.symm hhas2 hb22 hbz hlev hlen hkD with h | ⟨s', he, h⟩
      · exact Or.inl h
      · refine Or.inr ⟨s', ?_, h⟩
        simp only [Forest.eval, he]
    · have h1 := forest_run act D v0 kids hkv r2 [] b top below s wb restb hk.symm hhas2 (not_lt.mp hkD)
      simp only [Forest.eval]
      revert h1
      rcases kids.eval act s with ⟨_ | ws, s1⟩
      · intro h
        exact Or.inr ⟨s1, rfl, h⟩
      · rintro ⟨es, hr1, hm1, hl1, hh1⟩
        have hlen1 : es.length = (rhsC r2).length := by rw [hl1, hk, rhsC_eq, List.length_map]
        have htick := tick_reduce (act := act) (D := D) (v0 := v0) (es := es) (top := top) (below := below) (b := b) (w := wb)
          (rest := restb) (s := s1) r2.isLt hlen1 (reduce_at_end hh1)
        rw [hm1] at htick
        simp only
        revert htick
        rcases act r2 ws s1 with ⟨_ | v, s2⟩
        · intro htick
          exact Or.inr ⟨s2, rfl, hr1.ends (Ends.tick htick (by intro c h; cases h))⟩
        · intro htick
          let e : Entry V := ⟨findReduce top.state (lhsC r2), lhsC r2, v⟩
          have hfit : below.length + 1 + 1 ≤ D := by
            refine le_trans ?_ (not_lt.mp hkD)
            cases kids with
            | nil => exact absurd hk.symm (rhs_ne_nil r2)
            | tok _ _ l => exact le_height l _
            | node _ _ l => exact le_trans (le_height l _) (le_max_right _ _)
          have hs : shift D (top :: below) e = e :: top :: below := shift_ok (by simpa using hfit) e
          have hstep : Reach act D v0 ⟨top :: below, codes kids.yield ++ (b, wb) :: restb, s⟩
              ⟨e :: top :: below, codes F.yield ++ (a, w) :: rest, s2⟩ := by
            refine hr1.trans (Reach.tick ?_)
            rw [htick]
            simp only
            rw [if_pos hg, hs, hb]
          have hFD : D < F.height (below.length + 1 + 1) := by
            unfold Forest.height at hD
            omega
          rcases ih hFv r (pre ++ [.n (lhs r2)]) a e (top :: below) s2 w rest (by rw [hsyms]; simp [Forest.syms])
            (by rw [List.length_append]; exact hh) ha hz hlev' hfit hFD with ⟨n, s', h⟩ | ⟨s', he, h⟩
          · exact Or.inl ⟨n, s', hstep.ends h⟩
          · refine Or.inr ⟨s', ?_, hstep.ends h⟩
            simp only [he]

/-- The whole deck. -/
theorem deck_overflow (act : Actions V S) {D : ℕ} (hD5 : 5 ≤ D) (v0 : V) (F : Forest V) (tokens : List (Kind × V))
    (hF : F.Derives [.n .deck] tokens) (hD : D < F.height 1) (s : S) :
    (∃ n s', Returns act D v0 tokens s (.syntaxError (n + 1) s')) ∨
    ∃ s', F.eval act s = (none, s') ∧ Returns act D v0 tokens s (.thrown s') := by
  obtain ⟨hv, hs, hy⟩ := hF
  cases F with
  | nil => cases hs
  | tok k v rest => cases hs
  | node r kids rest =>
    have hr0 : lhs r = .deck ∧ rest.syms = [] := by
      simp only [Forest.syms, List.cons.injEq, Sym.n.injEq] at hs
      exact hs
    have hrest : rest = .nil := by
      cases rest with
      | nil => rfl
      | tok _ _ _ => cases hr0.2
      | node _ _ _ => cases hr0.2
    subst hrest
    have hr : r = 0 := by
      have : ∀ r : Fin 48, lhs r = .deck → r = 0 := by decide +kernel
      exact this r hr0.1
    subst hr
    obtain ⟨hk, hkv, -⟩ := hv
    have hy' : kids.yield = tokens := by
      rw [← hy]
      simp [Forest.yield]
    have hstart : ∀ o, Ends act D v0 ⟨[⟨0, 0, v0⟩], codes kids.yield ++ [(0, v0)], s⟩ o → Returns act D v0 tokens s o := by
      rintro o ⟨h0, n, hn⟩
      refine ⟨h0, n, ?_⟩
      unfold start
      rw [← hy']
      cases n with
      | zero => exact absurd hn.symm (h0 _)
      | succ n =>
        rw [← hn]
        rfl
    have hkD : D < kids.height 1 := by
      simp only [Forest.height] at hD
      omega
    rcases forest_overflow act hD5 v0 kids hkv 0 [] 0 ⟨0, 0, v0⟩ [] s v0 [] hk.symm has_start (by decide) (by simp) Level.zero
      (by simp only [List.length_nil]; omega) hkD with ⟨n, s', h⟩ | ⟨s', he, h⟩
    · exact Or.inl ⟨n, s', hstart _ h⟩
    · refine Or.inr ⟨s', ?_, hstart _ h⟩
      simp only [Forest.eval, he]

end Schnek.Lemma.Lemon
