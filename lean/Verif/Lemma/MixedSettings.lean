import Verif.Spec.MixedSettings
import Verif.Lemma.SettingsText
import Verif.Lemma.ScannerExamples

/-!
# Lemmas on setup files with integers and strings made by a program
-/

namespace Schnek.Lemma.SettingsText

open Schnek.Scanner Schnek.Spec Schnek.Spec.Lexer Schnek.Lemma.Scanner Schnek.Lemma.Lexer
open Schnek.Spec.SettingsText Schnek.Diagnostic Schnek.NumberText Schnek.Deck Schnek.Lemma.Deck

/-- a text between double quotes -/
theorem reads_text {w : List Byte} (hw : StringBody 34 w) (hlen : w.length ≤ 126) {r : List Byte} {p : List (Kind × List Byte)}
    (hr : Reads r p) : Reads (34 :: w ++ 34 :: r) ((.string, w) :: p) := by
  have hp : ∀ b : Byte, b ≠ 34 → b ≠ 92 → strip (dv b (resid 1)) = resid 1 ∧ firstNull (dv b (resid 1)) = none := by decide +kernel
  have hb : strip (dv 92 (resid 1)) = resid 2 ∧ firstNull (dv 92 (resid 1)) = none := by decide +kernel
  have ha : ∀ b : Byte, strip (dv b (resid 2)) = resid 1 ∧ firstNull (dv b (resid 2)) = none := by decide +kernel
  have hv : vecOf [34] = resid 1 := by decide +kernel
  have he : strip (dv 34 (resid 1)) = [] := by decide +kernel
  have hl := literal_run hp hb ha hv (i := 21) (by decide +kernel) he hw r
  obtain ⟨h1, -⟩ := body_run hp hb ha hw [34] hv
  have hs : 34 :: w ++ 34 :: r = (34 :: w ++ [34]) ++ r := by simp
  have hlen' : (34 :: w ++ [34]).length = w.length + 2 := by simp
  have htake : (34 :: w ++ 34 :: r).take (w.length + 2) = 34 :: w ++ [34] := by rw [hs, ← hlen', List.take_left]
  have hdrop : (34 :: w ++ 34 :: r).drop (w.length + 2) = r := by rw [hs, ← hlen', List.drop_left]
  have := reads_step (m := w.length + 2) hl (by decide) (by show _ ≤ 128; omega) (by
    rw [htake]
    refine not_extendable ?_
    rw [vecOf_append, show (34 :: w : List Byte) = [34] ++ w from rfl, h1, he]) (by rw [hdrop]; exact hr)
  rw [htake] at this
  have e : (emitted 0 (34 :: w ++ [34]) (useOf 21)) = [⟨0, .string, w⟩] := by
    show [(⟨0, .string, ((34 :: w ++ [34]).drop 1).take ((34 :: w ++ [34]).length - 2)⟩ : Tok)] = _
    simp
  rw [e] at this
  exact this

/-- the tokens of the value of a setting -/
def valueTokens : ℤ ⊕ String → List (Kind × List Byte)
  | .inl v => numberTokens v
  | .inr t => [(.string, bytes t)]

/-- the type -/
def typeToken : ℤ ⊕ String → Kind
  | .inl _ => .intDecl
  | .inr _ => .stringDecl

/-- the tokens of a setting -/
def mixedTokens (s : String × (ℤ ⊕ String)) : List (Kind × List Byte) :=
  (typeToken s.2, []) :: (.identifier, bytes s.1) :: (.equal, []) :: (valueTokens s.2 ++ [(.semicolon, [])])

theorem reads_named {name : String} (hn : IsName name) {r : List Byte} {p : List (Kind × List Byte)} (hr : Reads r p) :
    Reads (bytes name ++ 32 :: 61 :: 32 :: r) ((.identifier, bytes name) :: (.equal, []) :: p) := by
  obtain ⟨⟨a, w, hw, ha, hw'⟩, hc, hk, hlen⟩ := hn
  have r3 := reads_blank (b := 32) (by decide) (reads_token (u := []) (b := 61) (c := 32) (i := 0) (by decide +kernel) (by decide +kernel)
    (by decide) (by decide) (reads_blank (b := 32) (by decide) hr))
  have r4 := reads_name ha hw' (by
    intro k hk' he
    rw [← hw, bytes_val hc] at he
    have : name = k := String.toList_inj.mp (List.map_injective_iff.mpr (fun x y hxy => Char.toNat_inj.mp hxy) he)
    exact hk (this ▸ hk')) (by
      have : (bytes name).length = name.length := by rw [bytes, List.length_map, String.length_toList]
      rw [hw] at this
      simp only [List.length_cons] at this
      show _ ≤ 128
      omega) r3
  rw [hw]
  simpa [useOf, patterns, emitted, plainToks] using r4

theorem reads_end {r : List Byte} {p : List (Kind × List Byte)} (hr : Reads r p) : Reads (59 :: 10 :: r) ((.semicolon, []) :: p) := by
  have := reads_token (u := []) (b := 59) (c := 10) (i := 5) (by decide +kernel) (by decide +kernel) (by decide) (by decide)
    (reads_blank (b := 10) (by decide) hr)
  simpa [useOf, patterns, emitted, plainToks] using this

theorem reads_mixed {s : String × (ℤ ⊕ String)} (hn : IsName s.1) (hv : CanBeWritten s.2) {r : List Byte}
    {p : List (Kind × List Byte)} (hr : Reads r p) : Reads (mixedText s ++ r) (mixedTokens s ++ p) := by
  obtain ⟨name, v | t⟩ := s
  · exact reads_setting (s := (name, v)) hn hv.1.le hv.2 hr
  · have hlen : (bytes t).length = t.length := by rw [bytes, List.length_map, String.length_toList]
    have r1 := reads_named hn (reads_text hv.1 (by rw [hlen]; exact hv.2.2) (reads_end hr))
    have r2 := reads_token (u := [115, 116, 114, 105, 110]) (b := 103) (c := 32) (i := 17) (by decide +kernel) (by decide +kernel) (by decide)
      (by decide) (reads_blank (b := 32) (by decide) r1)
    have e : mixedText (name, .inr t) ++ r =
        [115, 116, 114, 105, 110] ++ 103 :: 32 :: (bytes name ++ 32 :: 61 :: 32 :: (34 :: bytes t ++ 34 :: 59 :: 10 :: r)) := by
      show (bytes "string " ++ bytes name ++ bytes " = \"" ++ bytes t ++ bytes "\";\n") ++ r = _
      rw [show bytes "string " = [115, 116, 114, 105, 110, 103, 32] by decide +kernel, show bytes " = \"" = [32, 61, 32, 34] by decide +kernel,
        show bytes "\";\n" = [34, 59, 10] by decide +kernel]
      simp
    rw [e]
    simpa [mixedTokens, typeToken, valueTokens, useOf, patterns, emitted, plainToks] using r2

theorem reads_mixedSettings {l : List (String × (ℤ ⊕ String))} (h : ∀ s ∈ l, IsName s.1 ∧ CanBeWritten s.2) :
    Reads (mixedSettingsText l) (l.flatMap mixedTokens) := by
  induction l with
  | nil => exact reads_nil
  | cons s l ih =>
    obtain ⟨h1, h2⟩ := h s (by simp)
    exact reads_mixed h1 h2 (ih fun t ht => h t (by simp [ht]))

/-! ## the statements -/

/-- the expression of a value -/
def valueExpr : ℤ ⊕ String → Grammar.Expression ℚ
  | .inl v => numberExpr v
  | .inr t => .one (.one (.one (.one (.lit (.str t)))))

/-- the statement of a setting -/
def mixedStmt (s : String × (ℤ ⊕ String)) : Stmt ℚ := .decl (settingValue s.2).ty [(s.1, some (valueExpr s.2))]

theorem mixed_statement (O : FloatOps ℚ) {s : String × (ℤ ⊕ String)} (hn : IsName s.1) (hv : CanBeWritten s.2) :
    ∃ ts, (mixedTokens s).map (plainMeaning (withText O)) = ts.map some ∧ StmtTokens (mixedStmt s) ts := by
  obtain ⟨name, v | t⟩ := s
  · exact setting_statement O (s := (name, v)) hn hv.1 hv.2
  · refine ⟨_, ?_, .decl .str [(name, some (valueExpr (.inr t)))] (by simp)⟩
    have e1 : plainMeaning (withText O) (.identifier, bytes name) = some (.expr (.ident name)) := by
      show some (DeckToken.expr (Token.ident (textOf (bytes name)))) = _
      rw [textOf_bytes hn.2.1]
    have e2 : plainMeaning (withText O) (.string, bytes t) = some (.expr (.lit (.str t))) := by
      show some (DeckToken.expr (Token.lit (.str (textOf (bytes t))))) = _
      rw [textOf_bytes hv.2.1]
    simp only [mixedTokens, valueTokens, typeToken, List.map_cons, List.map_nil, List.cons_append, List.nil_append, e1, e2]
    rfl

/-- the tokens of a list of settings are its statements -/
theorem mixed_deck (O : FloatOps ℚ) : ∀ (l : List (String × (ℤ ⊕ String))), (∀ s ∈ l, IsName s.1 ∧ CanBeWritten s.2) →
    ∀ toks : List Tok, plainToks toks = l.flatMap mixedTokens →
      ∃ parts, toks = parts.flatten ∧ List.Forall₂ (IsStatement (withText O)) parts (l.map mixedStmt) ∧ ∀ part ∈ parts, part.length ≤ 98 := by
  intro l
  induction l with
  | nil =>
    intro _ toks ht
    have : toks = [] := by simpa [plainToks] using ht
    exact ⟨[], by simp [this], .nil, by simp⟩
  | cons s l ih =>
    intro h toks ht
    rw [List.flatMap_cons] at ht
    unfold plainToks at ht
    obtain ⟨t1, t2, rfl, h1, h2⟩ := List.map_eq_append_iff.mp ht
    obtain ⟨hn, hv⟩ := h s (by simp)
    obtain ⟨parts, rfl, hp1, hp2⟩ := ih (fun t ht => h t (by simp [ht])) t2 h2
    obtain ⟨ts, hts, hst⟩ := mixed_statement O hn hv
    refine ⟨t1 :: parts, by simp, .cons ⟨ts, ?_, hst⟩ hp1, ?_⟩
    · rw [meaning_plain, ← hts]
      unfold plainToks
      rw [h1]
    · intro part hm
      rcases List.mem_cons.mp hm with rfl | hm
      · have : part.length = (mixedTokens s).length := by rw [← h1, List.length_map]
        rw [this, mixedTokens]
        rcases s.2 with v | t
        · show (_ :: _ :: _ :: (numberTokens v ++ [_])).length ≤ 98
          rw [numberTokens]
          split <;> simp
        · simp [valueTokens]
      · exact hp2 part hm

/-- the tokens of `double name = value;` -/
def doubleTokens (s : String × ℤ) : List (Kind × List Byte) := (.floatDecl, []) :: parameterTokens s

theorem reads_double {n : String} {v : ℤ} (hn : IsName n) (h1 : -2 ^ 31 ≤ v) (h2 : v < 2 ^ 31) :
    Reads (bytes "double " ++ bytes n ++ bytes " = " ++ bytes (String.ofList (decimal v)) ++ bytes ";\n") (doubleTokens (n, v)) := by
  have r := reads_token (u := [100, 111, 117, 98, 108]) (b := 101) (c := 32) (i := 15) (by decide +kernel) (by decide +kernel) (by decide) (by decide)
    (reads_blank (b := 32) (by decide) (reads_parameter (s := (n, v)) hn h1 h2 reads_nil))
  have e : bytes "double " ++ bytes n ++ bytes " = " ++ bytes (String.ofList (decimal v)) ++ bytes ";\n" =
      [100, 111, 117, 98, 108] ++ 101 :: 32 :: (parameterText (n, v) ++ []) := by
    unfold parameterText
    rw [show bytes "double " = [100, 111, 117, 98, 108, 101, 32] by decide +kernel]
    simp
  rw [e]
  simpa [doubleTokens, useOf, patterns, emitted, plainToks] using r

theorem double_statement (O : FloatOps ℚ) {n : String} {v : ℤ} (hn : IsName n) (h1 : -2 ^ 31 < v) (h2 : v < 2 ^ 31) :
    ∃ ts, (doubleTokens (n, v)).map (plainMeaning (withText O)) = ts.map some ∧ StmtTokens (.decl .float [(n, some (numberExpr v))]) ts := by
  refine ⟨_, ?_, .decl .float [(n, some (numberExpr v))] (by simp)⟩
  have e1 : plainMeaning (withText O) (.identifier, bytes n) = some (.expr (.ident n)) := by
    show some (DeckToken.expr (Token.ident (textOf (bytes n)))) = _
    rw [textOf_bytes hn.2.1]
  have e2 := number_meaning O (n := v.natAbs) (by omega)
  unfold doubleTokens parameterTokens numberTokens numberExpr
  by_cases hv : v < 0
  · simp only [if_pos hv, List.map_cons, List.map_nil, List.cons_append, List.nil_append, List.map_append, e1, e2]
    rfl
  · simp only [if_neg hv, List.map_cons, List.map_nil, List.cons_append, List.nil_append, List.map_append, e1, e2]
    rfl

/-! ## running the statements -/

variable {W : Type}

theorem build_value (H : Host ℚ W) (D : DeckState ℚ W) {v : ℤ ⊕ String} (h : CanBeWritten v) :
    ∃ e, (valueExpr v).build (D.env H) = some e ∧ e.isConstant D.state = true ∧ e.eval H.ops D.state = some (settingValue v) := by
  rcases v with v | t
  · exact build_number H D h.1 h.2
  · exact ⟨_, rfl, rfl, rfl⟩

/-- a setting is stored -/
theorem step_mixed (H : Host ℚ W) (D : DeckState ℚ W) (hD : DInv D) {s : String × (ℤ ⊕ String)} (hs : CanBeWritten s.2)
    (hnew : ∀ v, ¬ Declares D.store D.store.cursor s.1 v) : ∃ st, D.store.addVariableTo D.store.cursor s.1 D.heap.length = some st ∧
      D.step H (mixedStmt s) =
        (true, { D with store := st, heap := D.heap ++ [.ofValue (settingValue s.2) true false D.nextId], nextId := D.nextId + 1 }) := by
  obtain ⟨e, he, hc, hev⟩ := build_value H D hs
  have hv : D.store.varOf D.store.cursor s.1 = none := by
    rcases hv : D.store.varOf D.store.cursor s.1 with _ | v
    · rfl
    · exact absurd ((Vars.varOf_iff hD.store _ _ _).mp hv) (hnew v)
  refine ⟨_, by unfold Storage.addVariableTo; rw [hv]; rfl, ?_⟩
  show D.declare H (settingValue s.2).ty [(s.1, some (valueExpr s.2))] = _
  simp only [DeckState.declare, DeckState.buildAll, he, Option.bind_some, Option.map_some, List.reverse_singleton]
  simp only [DeckState.chain, DeckState.storeOne, DeckState.evaluate, hc, hev, if_true, Option.map_some, Storage.addVariable,
    Storage.addVariableTo, hv]
  rw [if_neg (by exact not_not.mpr rfl)]
  rfl

/-- all of them are stored -/
theorem run_mixed (H : Host ℚ W) : ∀ (l : List (String × (ℤ ⊕ String))) (D : DeckState ℚ W), DInv D → NoRefs D →
    (∀ s ∈ l, CanBeWritten s.2) → (l.map Prod.fst).Nodup → (∀ s ∈ l, ∀ v, ¬ Declares D.store D.store.cursor s.1 v) →
    ∃ D', D.run H (l.map mixedStmt) = (true, D') ∧ DInv D' ∧ NoRefs D' ∧ D'.store.cursor = D.store.cursor ∧ (∃ t, D'.heap = D.heap ++ t) ∧
      (∀ b n v, Declares D.store b n v → Declares D'.store b n v) ∧
      (∀ s ∈ l, ∃ v id, Declares D'.store D.store.cursor s.1 v ∧ D'.heap[v]? = some (.ofValue (settingValue s.2) true false id)) ∧
      ∀ b n v, Declares D'.store b n v → Declares D.store b n v ∨ (b = D.store.cursor ∧ n ∈ l.map Prod.fst) := by
  intro l
  induction l with
  | nil => intro D hD hR _ _ _; exact ⟨D, rfl, hD, hR, rfl, ⟨[], by simp⟩, fun _ _ _ h => h, by simp, fun _ _ _ h => Or.inl h⟩
  | cons s l ih =>
    intro D hD hR hv hnd hnew
    obtain ⟨hn1, hn2⟩ := List.nodup_cons.mp hnd
    obtain ⟨st, hst, hstep⟩ := step_mixed H D hD (hv s (by simp)) (hnew s (by simp))
    have hI := dinv_step H D (mixedStmt s) hD
    rw [hstep] at hI
    have hdec := Vars.addVariableTo_declares hst
    have hcur := (Vars.addVariableTo_cursor hst).1
    generalize hD1 : ({ D with store := st, heap := D.heap ++ [.ofValue (settingValue s.2) true false D.nextId], nextId := D.nextId + 1 } :
      DeckState ℚ W) = D1 at hstep hI
    have hs1 : D1.store = st := by rw [← hD1]
    have hh1 : D1.heap = D.heap ++ [.ofValue (settingValue s.2) true false D.nextId] := by rw [← hD1]
    rw [← hs1] at hdec hcur
    obtain ⟨D', a1, a2, a3, a4, ⟨t, a5⟩, a6, a7, a8⟩ := ih D1 hI (by
      intro x hx e he
      rw [hh1] at hx
      rcases List.mem_append.mp hx with hx | hx
      · exact hR x hx e he
      · rw [List.mem_singleton.mp hx] at he; cases he) (fun t ht => hv t (by simp [ht])) hn2 (by
      intro t ht v hd
      rw [hcur, hdec] at hd
      rcases hd with hd | ⟨-, -, hd, -⟩
      · exact hnew t (by simp [ht]) v hd
      · exact hn1 (hd ▸ List.mem_map_of_mem ht))
    refine ⟨D', ?_, a2, a3, a4.trans hcur, ⟨_, by rw [a5, hh1, List.append_assoc]⟩, fun b n v h => a6 b n v ((hdec b n v).mpr (Or.inl h)), ?_, ?_⟩
    · show DeckState.chain (DeckState.step H) (mixedStmt s :: l.map mixedStmt) D = _
      rw [chain_cons, hstep]
      exact a1
    · intro u hu
      rcases List.mem_cons.mp hu with rfl | hu
      · refine ⟨D.heap.length, D.nextId, a6 _ _ _ ((hdec _ _ _).mpr (Or.inr ⟨rfl, hD.store.cursor, rfl, rfl⟩)), ?_⟩
        rw [a5, hh1, List.append_assoc, List.getElem?_append_right (le_refl _)]
        simp
      · obtain ⟨v, id, h1, h2⟩ := a7 u hu
        exact ⟨v, id, by rw [← hcur]; exact h1, h2⟩
    · intro b n v h
      rcases a8 b n v h with h | ⟨h1, h2⟩
      · rcases (hdec b n v).mp h with h | ⟨h1, -, h2, -⟩
        · exact Or.inl h
        · exact Or.inr ⟨h1, by simp [h2]⟩
      · exact Or.inr ⟨h1.trans hcur, List.mem_cons_of_mem _ h2⟩

end Schnek.Lemma.SettingsText
