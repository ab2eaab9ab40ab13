import Verif.Lemma.TypedSettings
import Verif.Props.MixedSettings

/-!
# A setup file with integers, floating point numbers and strings made by a program is read again (C156)
-/

namespace Schnek.Props

open Schnek.Scanner Schnek.Spec Schnek.Spec.Lexer Schnek.Spec.SettingsText Schnek.Lemma.SettingsText Schnek.Lemma.Scanner Schnek.NumberText
open Schnek.Deck Schnek.Lemma.Deck

variable {W : Type}

/-- C156, partial. A program writes one line `int name = value;`, `double name = value;` or `string name = "text";` for each of its settings, and
another one reads this file: the file is accepted, and afterwards the root block has a variable of this type with exactly this value for each
name, and no other variables than before for other names. What is missing: the value -2147483648, floating point numbers whose text has neither
point nor exponent, texts with double quotes or backslashes that are not part of an escape, texts and names that are longer than the buffer of the
scanner, and the program without settings. -/
theorem C156_typed_partial (O : FloatOps ℚ) (P : Program ℚ W) (hO : P.host.ops = withText O) (hneg : ∀ y, P.host.ops.neg y = -y)
    (l : List (String × Val ℚ)) (hne : l ≠ []) (hl : ∀ s ∈ l, IsName s.1 ∧ CanBeStored s.2) (hnd : (l.map Prod.fst).Nodup)
    (hnew : ∀ s ∈ l, ∀ v, ¬ Declares P.begin.store 0 s.1 v) :
    ∃ D', (∀ r, Parses P.host P.begin (typedSettingsText l) r ↔ r = .ok D') ∧
      (∀ s ∈ l, ∃ v x, Declares D'.store 0 s.1 v ∧ D'.heap[v]? = some x ∧ x.ty = s.2.ty ∧ x.value = s.2) ∧
      ∀ n, n ∉ l.map Prod.fst → ∀ v, Declares D'.store 0 n v ↔ Declares P.begin.store 0 n v := by
  obtain ⟨hR, hcur⟩ := begin_noRefs P
  obtain ⟨hfit, hlex⟩ := reads_typedSettings hl
  obtain ⟨toks, hlex, hp⟩ := hlex 1
  obtain ⟨parts, hp1, hp2, hp3⟩ := typed_deck O l hl toks hp
  have h := C94_statements_partial P.host P.begin (typedSettingsText l) hfit toks _ hlex (l.map typedStmt)
    ⟨by simpa using hne, parts, hp1, by rw [hO]; exact hp2, hp3⟩
  obtain ⟨D1, a1, a2, a3, -, -, a6, a7, a8⟩ := run_typed P.host hneg l P.begin (dinv_after P []) hR (fun s hs => (hl s hs).2) hnd
    (by rw [hcur]; exact hnew)
  rcases hf : D1.finish P.host with _ | D'
  · exact absurd hf (noRefs_finish P.host a2 a3)
  obtain ⟨f1, -, -, -, f5, -⟩ := (finish_spec P.host a2).1 D' hf
  refine ⟨D', fun r => ?_, ?_, ?_⟩
  · rw [h r, readAs, a1]
    simp only [hf]
  · intro s hs
    obtain ⟨v, id, hd, hx⟩ := a7 s hs
    obtain ⟨val, hv, hval⟩ := f5 v _ hx
    refine ⟨v, _, by rw [f1, ← hcur]; exact hd, hv, rfl, ?_⟩
    rcases hval with rfl | ⟨e, -, x, hx', hfix, -⟩
    · rfl
    · rw [hx] at hx'
      cases hx'
      cases hfix
  · intro n hn v
    rw [f1]
    refine ⟨fun hd => ?_, a6 0 n v⟩
    rcases a8 0 n v hd with hd | ⟨-, hd⟩
    · exact hd
    · exact absurd hd hn

/-- C156. Every number of type `double` that is not a whole number can be written in a setup file. -/
theorem C156_fractions (x : ℚ) (hx : Binary64.IsDouble x) (h : ∀ k : ℤ, x ≠ k) : CanBeStored (.float x) := by
  refine ⟨hx, ?_⟩
  by_contra hn
  obtain ⟨v, ⟨t, k, i, p, f, n, z, e, hs, ht, hp, -, -, hz, rfl⟩, hf⟩ := Lemma.NumberText.readFloat_iff.mp (C145_float_again x hx)
  have hE := showFloat_small hx
  rw [hs] at hn hE
  obtain ⟨j, hj⟩ := showFloat_digits_whole hf hp hz fun c hc => by
    have hm : c ∈ t ++ i ++ p ++ z := by
      simp only [List.mem_append] at hc ⊢
      tauto
    exact ⟨fun h => hn ⟨c, hm, Or.inl h⟩, fun h => hn ⟨c, hm, Or.inr h⟩, fun h => hE (h ▸ hm)⟩
  exact h j hj

example : ∀ k : ℤ, (1 / 2 : ℚ) ≠ k := by
  intro k h
  have : (1 : ℚ) = ((2 * k : ℤ) : ℚ) := by push_cast; linarith
  have : (1 : ℤ) = 2 * k := by exact_mod_cast this
  omega

/-- The hypotheses are met: numbers and the name of a file, for a program with parameters `size` and `t`. -/
example : (∀ y, settingsProgram.host.ops.neg y = -y) ∧
    (∀ s ∈ ([("nx", .int 100), ("dx", .float (-1 / 1024)), ("output", .str "out #p.h5")] : List (String × Val ℚ)), IsName s.1 ∧ CanBeStored s.2) ∧
    (([("nx", .int 100), ("dx", .float (-1 / 1024)), ("output", .str "out #p.h5")] : List (String × Val ℚ)).map Prod.fst).Nodup ∧
    ∀ s ∈ ([("nx", .int 100), ("dx", .float (-1 / 1024)), ("output", .str "out #p.h5")] : List (String × Val ℚ)), ∀ v,
      ¬ Declares settingsProgram.begin.store 0 s.1 v := by
  have hb : settingsProgram.begin.store.blocks[0]? = some ⟨"root", "Root", none, [], [("size", 0), ("t", 1)], []⟩ := by rfl
  refine ⟨fun y => rfl, ?_, by decide, ?_⟩
  · intro s hs
    rcases List.mem_cons.mp hs with rfl | hs
    · exact ⟨⟨⟨110, [120], by decide +kernel, by decide +kernel, by decide +kernel⟩, by decide +kernel, by decide +kernel, by decide +kernel⟩, by norm_num, by norm_num⟩
    rcases List.mem_cons.mp hs with rfl | hs
    · refine ⟨⟨⟨100, [120], by decide +kernel, by decide +kernel, by decide +kernel⟩, by decide +kernel, by decide +kernel, by decide +kernel⟩, ⟨⟨-1, -10, by norm_num, by norm_num, by norm_num⟩, ?_⟩, ?_⟩
      · exact lt_of_lt_of_le (b := 1) (by rw [abs_lt]; constructor <;> norm_num) (one_le_pow₀ (by norm_num))
      · rw [show showFloat (-1 / 1024) = "-0.0009765625" by decide +kernel]
        exact ⟨'.', by decide, Or.inl rfl⟩
    · rw [List.mem_singleton.mp hs]
      refine ⟨⟨⟨111, [117, 116, 112, 117, 116], by decide +kernel, by decide +kernel, by decide +kernel⟩, by decide +kernel, by decide +kernel, by decide +kernel⟩, ?_, by decide +kernel, by decide +kernel⟩
      rw [show bytes "out #p.h5" = [111, 117, 116, 32, 35, 112, 46, 104, 53] by decide +kernel]
      repeat first | exact .nil | refine .plain (by decide) (by decide) ?_
  · rintro s hs v ⟨B, hB, hm⟩
    rw [hb] at hB
    cases hB
    rcases List.mem_cons.mp hs with rfl | hs
    · simp at hm
    rcases List.mem_cons.mp hs with rfl | hs
    · simp at hm
    · rw [List.mem_singleton.mp hs] at hm
      simp at hm

end Schnek.Props
