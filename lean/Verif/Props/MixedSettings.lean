import Verif.Lemma.MixedSettings
import Verif.Props.SettingsText
import Verif.Props.AcceptedStatements

/-!
# A setup file with integers and strings made by a program is read again (C156)
-/

namespace Schnek.Props

open Schnek.Scanner Schnek.Spec Schnek.Spec.Lexer Schnek.Spec.SettingsText Schnek.Lemma.SettingsText Schnek.Lemma.Scanner Schnek.NumberText
open Schnek.Deck Schnek.Lemma.Deck

variable {W : Type}

/-- C156, partial. A program writes one line `int name = value;` or `string name = "text";` for each of its settings, and another one reads this
file: the file is accepted, and afterwards the root block has a variable of this type with this value for each name, and no other variables
than before for other names. What is missing: the value -2147483648, texts with double quotes or backslashes that are not part of an escape,
texts and names that are longer than the buffer of the scanner, and the program without settings. -/
theorem C156_mixed_partial (O : FloatOps ℚ) (P : Program ℚ W) (hO : P.host.ops = withText O) (l : List (String × (ℤ ⊕ String))) (hne : l ≠ [])
    (hl : ∀ s ∈ l, IsName s.1 ∧ CanBeWritten s.2) (hnd : (l.map Prod.fst).Nodup)
    (hnew : ∀ s ∈ l, ∀ v, ¬ Declares P.begin.store 0 s.1 v) :
    ∃ D', (∀ r, Parses P.host P.begin (mixedSettingsText l) r ↔ r = .ok D') ∧
      (∀ s ∈ l, ∃ v x, Declares D'.store 0 s.1 v ∧ D'.heap[v]? = some x ∧ x.ty = (settingValue s.2).ty ∧ x.value = settingValue s.2) ∧
      ∀ n, n ∉ l.map Prod.fst → ∀ v, Declares D'.store 0 n v ↔ Declares P.begin.store 0 n v := by
  obtain ⟨hR, hcur⟩ := begin_noRefs P
  obtain ⟨hfit, hlex⟩ := reads_mixedSettings hl
  obtain ⟨toks, hlex, hp⟩ := hlex 1
  obtain ⟨parts, hp1, hp2, hp3⟩ := mixed_deck O l hl toks hp
  have h := C94_statements_partial P.host P.begin (mixedSettingsText l) hfit toks _ hlex (l.map mixedStmt)
    ⟨by simpa using hne, parts, hp1, by rw [hO]; exact hp2, hp3⟩
  obtain ⟨D1, a1, a2, a3, -, -, a6, a7, a8⟩ := run_mixed P.host l P.begin (dinv_after P []) hR (fun s hs => (hl s hs).2) hnd
    (by rw [hcur]; exact hnew)
  rcases hf : D1.finish P.host with _ | D'
  · exact absurd hf (noRefs_finish P.host a2 a3)
  obtain ⟨f1, -, -, -, f5, -⟩ := (finish_spec P.host a2).1 D' hf
  refine ⟨D', fun r => ?_, ?_, ?_⟩
  · rw [h r, readAs, a1]
    simp only [hf]
  · intro s hs
    obtain ⟨v, id, hd, hx⟩ := a7 s hs
    obtain ⟨val, hv, hval⟩ := f5 v _ hx
    refine ⟨v, _, by rw [f1, ← hcur]; exact hd, hv, rfl, ?_⟩
    rcases hval with rfl | ⟨e, -, x, hx', hfix, -⟩
    · rfl
    · rw [hx] at hx'
      cases hx'
      cases hfix
  · intro n hn v
    rw [f1]
    refine ⟨fun hd => ?_, a6 0 n v⟩
    rcases a8 0 n v hd with hd | ⟨-, hd⟩
    · exact hd
    · exact absurd hd hn

/-- C156 is violated for settings of type `double` if the value is a whole number: its text, as the standard streams write it, has no point, and
`double name = 12;` is rejected by every program. -/
theorem C156_violated_whole_double (O : FloatOps ℚ) (P : Program ℚ W) (hO : P.host.ops = withText O) (n : String) (hn : IsName n) (v : ℤ)
    (h1 : -2 ^ 31 < v) (h2 : v < 2 ^ 31) (r : ParseResult ℚ W) :
    Parses P.host P.begin (bytes "double " ++ bytes n ++ bytes " = " ++ bytes (String.ofList (Diagnostic.decimal v)) ++ bytes ";\n") r ↔
      r = .exception := by
  obtain ⟨hfit, hlex⟩ := reads_double hn h1.le h2
  obtain ⟨toks, hlex, hp⟩ := hlex 1
  have hdeck : IsDeckUpTo P.host.ops 98 toks [.decl .float [(n, some (numberExpr v))]] := by
    refine ⟨by simp, [toks], by simp, .cons ?_ .nil, ?_⟩
    · obtain ⟨ts, hts, hst⟩ := double_statement O hn h1 h2
      exact ⟨ts, by rw [hO, meaning_plain, hp, hts], hst⟩
    · intro part hm
      rw [List.mem_singleton.mp hm]
      have : toks.length = (doubleTokens (n, v)).length := by rw [← hp, plainToks, List.length_map]
      rw [this, doubleTokens, parameterTokens, numberTokens]
      split <;> simp
  rw [C94_statements_partial P.host P.begin _ hfit toks _ hlex _ hdeck, readAs]
  have hrej : (P.begin.run P.host [.decl .float [(n, some (numberExpr v))]]).1 = false := by
    rw [run_one, ← Bool.not_eq_true]
    intro h
    obtain ⟨hall, -⟩ := (C157_declaration_partial P [] .float _).mp h
    obtain ⟨g, e, hg, he, ht, -⟩ := hall _ List.mem_cons_self
    cases hg
    unfold numberExpr at he
    split at he
    · cases he; cases ht
    · cases he; cases ht
  rcases hrun : P.begin.run P.host [.decl .float [(n, some (numberExpr v))]] with ⟨ok, D⟩
  rw [hrun] at hrej
  simp only at hrej
  subst hrej
  rfl

/-- what is written for the value 12 of type `double` -/
example : String.ofList (Diagnostic.decimal 12) = showFloat 12 := by decide +kernel

/-- The hypotheses are met: a number and the name of a file, for a program with parameters `size` and `t`. -/
example : (∀ s ∈ ([("nx", .inl 100), ("output", .inr "out #p.h5")] : List (String × (ℤ ⊕ String))), IsName s.1 ∧ CanBeWritten s.2) ∧
    (([("nx", .inl 100), ("output", .inr "out #p.h5")] : List (String × (ℤ ⊕ String))).map Prod.fst).Nodup ∧
    ∀ s ∈ ([("nx", .inl 100), ("output", .inr "out #p.h5")] : List (String × (ℤ ⊕ String))), ∀ v,
      ¬ Declares settingsProgram.begin.store 0 s.1 v := by
  have hb : settingsProgram.begin.store.blocks[0]? = some ⟨"root", "Root", none, [], [("size", 0), ("t", 1)], []⟩ := by rfl
  refine ⟨?_, by decide, ?_⟩
  · intro s hs
    rcases List.mem_cons.mp hs with rfl | hs
    · exact ⟨⟨⟨110, [120], by decide +kernel, by decide +kernel, by decide +kernel⟩, by decide +kernel, by decide +kernel, by decide +kernel⟩, by norm_num, by norm_num⟩
    · rw [List.mem_singleton.mp hs]
      refine ⟨⟨⟨111, [117, 116, 112, 117, 116], by decide +kernel, by decide +kernel, by decide +kernel⟩, by decide +kernel, by decide +kernel, by decide +kernel⟩, ?_, by decide +kernel, by decide +kernel⟩
      rw [show bytes "out #p.h5" = [111, 117, 116, 32, 35, 112, 46, 104, 53] by decide +kernel]
      repeat first | exact .nil | refine .plain (by decide) (by decide) ?_
  · rintro s hs v ⟨B, hB, hm⟩
    rw [hb] at hB
    cases hB
    rcases List.mem_cons.mp hs with rfl | hs
    · simp at hm
    · rw [List.mem_singleton.mp hs] at hm
      simp at hm

end Schnek.Props
