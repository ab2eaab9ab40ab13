import Verif.Lemma.FloatSettings

/-!
# Lemmas on setup files with integers, floating point numbers and strings made by a program
-/

namespace Schnek.Lemma.SettingsText

open Schnek.Scanner Schnek.Spec Schnek.Spec.Lexer Schnek.Lemma.Scanner Schnek.Lemma.Lexer
open Schnek.Spec.SettingsText Schnek.Lemma.Diag Schnek.Diagnostic Schnek.NumberText Schnek.Deck Schnek.Lemma.Deck

/-- the tokens of a floating point number -/
def floatTokens (x : ℚ) : List (Kind × List Byte) :=
  if x < 0 then [(.minus, []), (.float, toBytes (showPos (-x)))] else [(.float, toBytes (showPos x))]

/-- the tokens of the value of a setting -/
def typedValue : Val ℚ → List (Kind × List Byte)
  | .int v => numberTokens v
  | .float x => floatTokens x
  | .str t => [(.string, bytes t)]

/-- the type -/
def typedToken : Val ℚ → Kind
  | .int _ => .intDecl
  | .float _ => .floatDecl
  | .str _ => .stringDecl

/-- the tokens of a setting -/
def typedTokens (s : String × Val ℚ) : List (Kind × List Byte) :=
  (typedToken s.2, []) :: (.identifier, bytes s.1) :: (.equal, []) :: (typedValue s.2 ++ [(.semicolon, [])])

theorem double_neg {x : ℚ} (h : Binary64.IsDouble x) : Binary64.IsDouble (-x) :=
  ⟨Lemma.Binary64.IsFormat.neg h.1, by rw [abs_neg]; exact h.2⟩

theorem showFloat_cases {x : ℚ} (h : ∃ c ∈ (showFloat x).toList, c = '.' ∨ c = 'e') :
    (x < 0 ∧ showFloat x = String.ofList ('-' :: showPos (-x)) ∧ ∃ c ∈ showPos (-x), c = '.' ∨ c = 'e') ∨
    (0 < x ∧ showFloat x = String.ofList (showPos x) ∧ ∃ c ∈ showPos x, c = '.' ∨ c = 'e') := by
  unfold showFloat at *
  rw [String.toList_ofList] at h
  by_cases h0 : x = 0
  · rw [if_pos h0] at h
    obtain ⟨c, hc, hor⟩ := h
    rw [List.mem_singleton.mp hc] at hor
    exact absurd hor (by decide)
  · rw [if_neg h0] at h ⊢
    by_cases hn : x < 0
    · rw [if_pos hn] at h ⊢
      refine Or.inl ⟨hn, rfl, ?_⟩
      obtain ⟨c, hc, hor⟩ := h
      rcases List.mem_cons.mp hc with rfl | hc
      · exact absurd hor (by decide)
      · exact ⟨c, hc, hor⟩
    · rw [if_neg hn] at h ⊢
      exact Or.inr ⟨lt_of_le_of_ne (not_lt.mp hn) (Ne.symm h0), rfl, h⟩

theorem reads_floatValue {x : ℚ} (hx : Binary64.IsDouble x) (h : ∃ c ∈ (showFloat x).toList, c = '.' ∨ c = 'e') {r : List Byte}
    {p : List (Kind × List Byte)} (hr : Reads (59 :: r) p) : Reads (bytes (showFloat x) ++ 59 :: r) (floatTokens x ++ p) := by
  unfold floatTokens
  rcases showFloat_cases h with ⟨hn, he, hc⟩ | ⟨hn, he, hc⟩
  · obtain ⟨h1, h2, b, w, hw, hb⟩ := showPos_end (neg_pos.mpr hn) (double_neg hx) hc
    have hD := reads_float h1 (by show _ < 128; omega) hr
    rw [if_pos hn, he, show bytes (String.ofList ('-' :: showPos (-x))) = 45 :: toBytes (showPos (-x)) from toBytes_cons _ _]
    rw [hw] at hD ⊢
    have := reads_token (u := []) (b := 45) (c := b) (i := 8) (by decide +kernel) (digit_minus b hb) (by decide) (by decide) hD
    simpa [useOf, patterns, emitted, plainToks] using this
  · obtain ⟨h1, h2, -⟩ := showPos_end hn hx hc
    rw [if_neg (not_lt.mpr hn.le), he]
    exact reads_float h1 (by show _ < 128; omega) hr

theorem reads_typed {s : String × Val ℚ} (hn : IsName s.1) (hv : CanBeStored s.2) {r : List Byte}
    {p : List (Kind × List Byte)} (hr : Reads r p) : Reads (typedText s ++ r) (typedTokens s ++ p) := by
  obtain ⟨name, v | x | t⟩ := s
  · exact reads_mixed (s := (name, .inl v)) hn hv hr
  · have r1 := reads_named hn (reads_floatValue hv.1 hv.2 (reads_end hr))
    have r2 := reads_token (u := [100, 111, 117, 98, 108]) (b := 101) (c := 32) (i := 15) (by decide +kernel) (by decide +kernel) (by decide)
      (by decide) (reads_blank (b := 32) (by decide) r1)
    have e : typedText (name, .float x) ++ r =
        [100, 111, 117, 98, 108] ++ 101 :: 32 :: (bytes name ++ 32 :: 61 :: 32 :: (bytes (showFloat x) ++ 59 :: 10 :: r)) := by
      show (bytes "double " ++ bytes name ++ bytes " = " ++ bytes (showFloat x) ++ bytes ";\n") ++ r = _
      rw [show bytes "double " = [100, 111, 117, 98, 108, 101, 32] by decide +kernel, show bytes " = " = [32, 61, 32] by decide +kernel,
        show bytes ";\n" = [59, 10] by decide +kernel]
      simp
    rw [e]
    simpa [typedTokens, typedToken, typedValue, useOf, patterns, emitted, plainToks] using r2
  · exact reads_mixed (s := (name, .inr t)) hn hv hr

theorem reads_typedSettings {l : List (String × Val ℚ)} (h : ∀ s ∈ l, IsName s.1 ∧ CanBeStored s.2) :
    Reads (typedSettingsText l) (l.flatMap typedTokens) := by
  induction l with
  | nil => exact reads_nil
  | cons s l ih =>
    obtain ⟨h1, h2⟩ := h s (by simp)
    exact reads_typed h1 h2 (ih fun t ht => h t (by simp [ht]))

/-! ## the statements -/

/-- the expression of a floating point number -/
def floatExpr (x : ℚ) : Grammar.Expression ℚ :=
  if x < 0 then .one (.minus (.one (.one (.lit (.float (-x)))))) else .one (.one (.one (.one (.lit (.float x)))))

/-- the expression of a value -/
def typedExpr : Val ℚ → Grammar.Expression ℚ
  | .int v => numberExpr v
  | .float x => floatExpr x
  | .str t => .one (.one (.one (.one (.lit (.str t)))))

/-- the statement of a setting -/
def typedStmt (s : String × Val ℚ) : Stmt ℚ := .decl s.2.ty [(s.1, some (typedExpr s.2))]

theorem toBytes_text {l : List Char} (h : ∀ c ∈ l, c.toNat < 256) : textOf (toBytes l) = String.ofList l :=
  textOf_bytes (by rw [String.toList_ofList]; exact h)

theorem float_chars {l : List Char} {v : ℚ} (h : Spec.NumberText.FloatText l v) : ∀ c ∈ l, c.toNat < 256 := by
  obtain ⟨t, k, i, p, f, n, x, e, rfl, ht, hp, -, hd, hx, -⟩ := h
  have hdig : ∀ c : Char, c.isDigit = true → c.toNat < 256 := by
    intro c hc
    have := (NumberText.isDigit_iff c).mp hc
    omega
  have hsign : ∀ (t : List Char) (k : ℤ), Spec.NumberText.Sign t k → ∀ c ∈ t, c.toNat < 256 := by
    intro t k ht c hc
    cases ht with
    | none => cases hc
    | plus => rw [List.mem_singleton.mp hc]; decide
    | minus => rw [List.mem_singleton.mp hc]; decide
  have hif := (NumberText.digits_iff.mp hd).1
  intro c hc
  simp only [List.mem_append] at hc
  rcases hc with ((hc | hc) | hc) | hc
  · exact hsign t k ht c hc
  · exact hdig c (hif c (by simp [hc]))
  · cases hp with
    | none => cases hc
    | point =>
      rcases List.mem_cons.mp hc with rfl | hc
      · decide
      · exact hdig c (hif c (by simp [hc]))
  · cases hx with
    | none => cases hc
    | exp h1 h2 =>
      rcases List.mem_cons.mp hc with rfl | hc
      · rcases h1 with rfl | rfl <;> decide
      · obtain ⟨t', k', l', n', rfl, g1, -, g2, -⟩ := h2
        rcases List.mem_append.mp hc with hc | hc
        · exact hsign _ _ g1 c hc
        · exact hdig c ((NumberText.digits_iff.mp g2).1 c hc)

theorem roundInt_int (k : ℤ) : Binary64.roundInt (k : ℚ) = k := by
  unfold Binary64.roundInt
  rw [Int.floor_intCast, sub_self, if_pos (by norm_num)]

/-- a whole number that is rounded is a whole number -/
theorem rnd_whole (k : ℤ) : ∃ j : ℤ, Binary64.rnd (k : ℚ) = j := by
  unfold Binary64.rnd
  generalize Binary64.spacing (k : ℚ) = s
  rcases Int.le_total 0 s with hs | hs
  · obtain ⟨m, rfl⟩ := Int.eq_ofNat_of_zero_le hs
    exact ⟨_ * 2 ^ m, by rw [zpow_natCast]; push_cast; rfl⟩
  · obtain ⟨m, hm⟩ := Int.eq_ofNat_of_zero_le (neg_nonneg.mpr hs)
    have : s = -(m : ℤ) := by omega
    subst this
    refine ⟨k, ?_⟩
    have h : (k : ℚ) / 2 ^ (-(m : ℤ)) = ((k * 2 ^ m : ℤ) : ℚ) := by
      rw [zpow_neg, zpow_natCast, div_inv_eq_mul]; push_cast; rfl
    rw [h, roundInt_int, zpow_neg, zpow_natCast]
    push_cast
    field_simp

/-- a number without point and exponent is a whole number -/
theorem showFloat_digits_whole {k : ℤ} {n : ℕ} {p f z : List Char} {e : ℤ} {x : ℚ}
    (hf : Binary64.fl (k * (n / 10 ^ f.length) * 10 ^ e) = some x) (hp : Spec.NumberText.Fraction p f) (hz : Spec.NumberText.Exponent z e)
    (hn : ∀ c ∈ p ++ z, c ≠ '.' ∧ c ≠ 'e' ∧ c ≠ 'E') : ∃ j : ℤ, x = j := by
  cases hp with
  | point f => exact absurd rfl (hn '.' (by simp)).1
  | none =>
    cases hz with
    | exp h _ =>
      obtain ⟨-, h1, h2⟩ := hn _ (List.mem_append_right _ List.mem_cons_self)
      rcases h with h | h
      · exact absurd h h1
      · exact absurd h h2
    | none =>
      rw [Lemma.Binary64.fl_eq hf]
      obtain ⟨j, hj⟩ := rnd_whole (k * n)
      refine ⟨j, ?_⟩
      rw [← hj]
      congr 1
      push_cast
      simp

/-- the exponent is written with a small letter -/
theorem showPos_small {a : ℚ} (h0 : 0 < a) (ha : Binary64.IsDouble a) : 'E' ∉ showPos a := by
  obtain ⟨i, f, x, he, hi, -, hf, hx, -⟩ := showPos_parts h0 ha
  intro hE
  have h69 : (69 : Byte) ∈ toBytes i ++ toBytes f ++ toBytes x := by
    rw [he] at hE
    rw [← toBytes_append, ← toBytes_append, toBytes_eq]
    exact List.mem_map.mpr ⟨'E', hE, by decide⟩
  have hno : ∀ g : List Byte, (∀ b ∈ g, isDigit b = true) → (69 : Byte) ∉ g := fun g hg h => absurd (hg _ h) (by decide)
  rcases List.mem_append.mp h69 with h | h
  · rcases List.mem_append.mp h with h | h
    · exact hno _ (toBytes_digits hi) h
    · rcases hf with hf | ⟨g, hf, hg⟩
      · rw [hf] at h; cases h
      · rw [hf] at h
        rcases List.mem_cons.mp h with h | h
        · exact absurd h (by decide)
        · exact hno g hg h
  · rcases hx with hx | ⟨s, g, hx, hs, -, hg⟩
    · rw [hx] at h; cases h
    · rw [hx] at h
      rcases List.mem_cons.mp h with h | h
      · exact absurd h (by decide)
      · rcases List.mem_cons.mp h with h | h
        · rcases hs with rfl | rfl <;> exact absurd h (by decide)
        · exact hno g hg h

theorem showFloat_small {x : ℚ} (hx : Binary64.IsDouble x) : 'E' ∉ (showFloat x).toList := by
  unfold showFloat
  rw [String.toList_ofList]
  by_cases h0 : x = 0
  · rw [if_pos h0]; decide
  rw [if_neg h0]
  by_cases hn : x < 0
  · rw [if_pos hn]
    intro h
    rcases List.mem_cons.mp h with h | h
    · exact absurd h (by decide)
    · exact showPos_small (neg_pos.mpr hn) (double_neg hx) h
  · rw [if_neg hn]
    exact showPos_small (lt_of_le_of_ne (not_lt.mp hn) (Ne.symm h0)) hx

theorem plainMeaning_float (O : FloatOps ℚ) (w : List Byte) :
    plainMeaning (withText O) (.float, w) = (readFloat (textOf w)).map fun x => DeckToken.expr (.lit (.float x)) := rfl

theorem float_meaning (O : FloatOps ℚ) {a : ℚ} (h0 : 0 < a) (ha : Binary64.IsDouble a) :
    plainMeaning (withText O) (.float, toBytes (showPos a)) = some (.expr (.lit (.float a))) := by
  have ht : textOf (toBytes (showPos a)) = showFloat a := by
    rw [toBytes_text]
    · unfold showFloat
      rw [if_neg h0.ne', if_neg (not_lt.mpr h0.le)]
    · obtain ⟨v, hv, -⟩ := NumberText.readFloat_iff.mp (Props.C145_float_again a ha)
      intro c hc
      exact float_chars hv c (by
        unfold showFloat
        rw [if_neg h0.ne', if_neg (not_lt.mpr h0.le), String.toList_ofList]
        exact hc)
  rw [plainMeaning_float, ht, Props.C145_float_again a ha]
  rfl

theorem typed_statement (O : FloatOps ℚ) {s : String × Val ℚ} (hn : IsName s.1) (hv : CanBeStored s.2) :
    ∃ ts, (typedTokens s).map (plainMeaning (withText O)) = ts.map some ∧ StmtTokens (typedStmt s) ts := by
  obtain ⟨name, v | x | t⟩ := s
  · exact mixed_statement O (s := (name, .inl v)) hn hv
  · refine ⟨_, ?_, .decl .float [(name, some (typedExpr (.float x)))] (by simp)⟩
    have e1 : plainMeaning (withText O) (.identifier, bytes name) = some (.expr (.ident name)) := by
      show some (DeckToken.expr (Token.ident (textOf (bytes name)))) = _
      rw [textOf_bytes hn.2.1]
    simp only [typedTokens, typedValue, typedToken, typedExpr]
    unfold floatTokens floatExpr
    rcases showFloat_cases hv.2 with ⟨h, -, -⟩ | ⟨h, -, -⟩
    · have e2 := float_meaning O (neg_pos.mpr h) (double_neg hv.1)
      simp only [if_pos h, List.map_cons, List.map_nil, List.cons_append, List.nil_append, e1, e2]
      rfl
    · have e2 := float_meaning O h hv.1
      simp only [if_neg (not_lt.mpr h.le), List.map_cons, List.map_nil, List.cons_append, List.nil_append, e1, e2]
      rfl
  · exact mixed_statement O (s := (name, .inr t)) hn hv

/-- the tokens of a list of settings are its statements -/
theorem typed_deck (O : FloatOps ℚ) : ∀ (l : List (String × Val ℚ)), (∀ s ∈ l, IsName s.1 ∧ CanBeStored s.2) →
    ∀ toks : List Tok, plainToks toks = l.flatMap typedTokens →
      ∃ parts, toks = parts.flatten ∧ List.Forall₂ (IsStatement (withText O)) parts (l.map typedStmt) ∧ ∀ part ∈ parts, part.length ≤ 98 := by
  intro l
  induction l with
  | nil =>
    intro _ toks ht
    have : toks = [] := by simpa [plainToks] using ht
    exact ⟨[], by simp [this], .nil, by simp⟩
  | cons s l ih =>
    intro h toks ht
    rw [List.flatMap_cons] at ht
    unfold plainToks at ht
    obtain ⟨t1, t2, rfl, h1, h2⟩ := List.map_eq_append_iff.mp ht
    obtain ⟨hn, hv⟩ := h s (by simp)
    obtain ⟨parts, rfl, hp1, hp2⟩ := ih (fun t ht => h t (by simp [ht])) t2 h2
    obtain ⟨ts, hts, hst⟩ := typed_statement O hn hv
    refine ⟨t1 :: parts, by simp, .cons ⟨ts, ?_, hst⟩ hp1, ?_⟩
    · rw [meaning_plain, ← hts]
      unfold plainToks
      rw [h1]
    · intro part hm
      rcases List.mem_cons.mp hm with rfl | hm
      · have : part.length = (typedTokens s).length := by rw [← h1, List.length_map]
        rw [this, typedTokens]
        rcases s.2 with v | x | t
        · show (_ :: _ :: _ :: (numberTokens v ++ [_])).length ≤ 98
          rw [numberTokens]
          split <;> simp
        · show (_ :: _ :: _ :: (floatTokens x ++ [_])).length ≤ 98
          rw [floatTokens]
          split <;> simp
        · simp [typedValue]
      · exact hp2 part hm

/-! ## running the statements -/

variable {W : Type}

theorem build_typed (H : Host ℚ W) (hneg : ∀ y, H.ops.neg y = -y) (D : DeckState ℚ W) {v : Val ℚ} (h : CanBeStored v) :
    ∃ e, (typedExpr v).build (D.env H) = some e ∧ e.isConstant D.state = true ∧ e.eval H.ops D.state = some v := by
  rcases v with v | x | t
  · exact build_number H D h.1 h.2
  · show ∃ e, (floatExpr x).build (D.env H) = some e ∧ _
    unfold floatExpr
    by_cases hx : x < 0
    · rw [if_pos hx]
      refine ⟨_, rfl, rfl, ?_⟩
      show some (Val.float (H.ops.neg (-x))) = _
      rw [hneg, neg_neg]
    · rw [if_neg hx]
      exact ⟨_, rfl, rfl, rfl⟩
  · exact ⟨_, rfl, rfl, rfl⟩

/-- a setting is stored -/
theorem step_typed (H : Host ℚ W) (hneg : ∀ y, H.ops.neg y = -y) (D : DeckState ℚ W) (hD : DInv D) {s : String × Val ℚ} (hs : CanBeStored s.2)
    (hnew : ∀ v, ¬ Declares D.store D.store.cursor s.1 v) : ∃ st, D.store.addVariableTo D.store.cursor s.1 D.heap.length = some st ∧
      D.step H (typedStmt s) =
        (true, { D with store := st, heap := D.heap ++ [.ofValue (s.2) true false D.nextId], nextId := D.nextId + 1 }) := by
  obtain ⟨e, he, hc, hev⟩ := build_typed H hneg D hs
  have hv : D.store.varOf D.store.cursor s.1 = none := by
    rcases hv : D.store.varOf D.store.cursor s.1 with _ | v
    · rfl
    · exact absurd ((Vars.varOf_iff hD.store _ _ _).mp hv) (hnew v)
  refine ⟨_, by unfold Storage.addVariableTo; rw [hv]; rfl, ?_⟩
  show D.declare H s.2.ty [(s.1, some (typedExpr s.2))] = _
  simp only [DeckState.declare, DeckState.buildAll, he, Option.bind_some, Option.map_some, List.reverse_singleton]
  simp only [DeckState.chain, DeckState.storeOne, DeckState.evaluate, hc, hev, if_true, Option.map_some, Storage.addVariable,
    Storage.addVariableTo, hv]
  rw [if_neg (by exact not_not.mpr rfl)]
  rfl

/-- all of them are stored -/
theorem run_typed (H : Host ℚ W) (hneg : ∀ y, H.ops.neg y = -y) : ∀ (l : List (String × Val ℚ)) (D : DeckState ℚ W), DInv D → NoRefs D →
    (∀ s ∈ l, CanBeStored s.2) → (l.map Prod.fst).Nodup → (∀ s ∈ l, ∀ v, ¬ Declares D.store D.store.cursor s.1 v) →
    ∃ D', D.run H (l.map typedStmt) = (true, D') ∧ DInv D' ∧ NoRefs D' ∧ D'.store.cursor = D.store.cursor ∧ (∃ t, D'.heap = D.heap ++ t) ∧
      (∀ b n v, Declares D.store b n v → Declares D'.store b n v) ∧
      (∀ s ∈ l, ∃ v id, Declares D'.store D.store.cursor s.1 v ∧ D'.heap[v]? = some (.ofValue (s.2) true false id)) ∧
      ∀ b n v, Declares D'.store b n v → Declares D.store b n v ∨ (b = D.store.cursor ∧ n ∈ l.map Prod.fst) := by
  intro l
  induction l with
  | nil => intro D hD hR _ _ _; exact ⟨D, rfl, hD, hR, rfl, ⟨[], by simp⟩, fun _ _ _ h => h, by simp, fun _ _ _ h => Or.inl h⟩
  | cons s l ih =>
    intro D hD hR hv hnd hnew
    obtain ⟨hn1, hn2⟩ := List.nodup_cons.mp hnd
    obtain ⟨st, hst, hstep⟩ := step_typed H hneg D hD (hv s (by simp)) (hnew s (by simp))
    have hI := dinv_step H D (typedStmt s) hD
    rw [hstep] at hI
    have hdec := Vars.addVariableTo_declares hst
    have hcur := (Vars.addVariableTo_cursor hst).1
    generalize hD1 : ({ D with store := st, heap := D.heap ++ [.ofValue (s.2) true false D.nextId], nextId := D.nextId + 1 } :
      DeckState ℚ W) = D1 at hstep hI
    have hs1 : D1.store = st := by rw [← hD1]
    have hh1 : D1.heap = D.heap ++ [.ofValue (s.2) true false D.nextId] := by rw [← hD1]
    rw [← hs1] at hdec hcur
    obtain ⟨D', a1, a2, a3, a4, ⟨t, a5⟩, a6, a7, a8⟩ := ih D1 hI (by
      intro x hx e he
      rw [hh1] at hx
      rcases List.mem_append.mp hx with hx | hx
      · exact hR x hx e he
      · rw [List.mem_singleton.mp hx] at he; cases he) (fun t ht => hv t (by simp [ht])) hn2 (by
      intro t ht v hd
      rw [hcur, hdec] at hd
      rcases hd with hd | ⟨-, -, hd, -⟩
      · exact hnew t (by simp [ht]) v hd
      · exact hn1 (hd ▸ List.mem_map_of_mem ht))
    refine ⟨D', ?_, a2, a3, a4.trans hcur, ⟨_, by rw [a5, hh1, List.append_assoc]⟩, fun b n v h => a6 b n v ((hdec b n v).mpr (Or.inl h)), ?_, ?_⟩
    · show DeckState.chain (DeckState.step H) (typedStmt s :: l.map typedStmt) D = _
      rw [chain_cons, hstep]
      exact a1
    · intro u hu
      rcases List.mem_cons.mp hu with rfl | hu
      · refine ⟨D.heap.length, D.nextId, a6 _ _ _ ((hdec _ _ _).mpr (Or.inr ⟨rfl, hD.store.cursor, rfl, rfl⟩)), ?_⟩
        rw [a5, hh1, List.append_assoc, List.getElem?_append_right (le_refl _)]
        simp
      · obtain ⟨v, id, h1, h2⟩ := a7 u hu
        exact ⟨v, id, by rw [← hcur]; exact h1, h2⟩
    · intro b n v h
      rcases a8 b n v h with h | ⟨h1, h2⟩
      · rcases (hdec b n v).mp h with h | ⟨h1, -, h2, -⟩
        · exact Or.inl h
        · exact Or.inr ⟨h1, by simp [h2]⟩
      · exact Or.inr ⟨h1.trans hcur, List.mem_cons_of_mem _ h2⟩

end Schnek.Lemma.SettingsText
