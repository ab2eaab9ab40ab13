import Verif.Props.UnitTests
import Verif.Props.SessionField

/-!
# The example of the manual for filling fields (docs/manual/reading-setup-files/filling-fields.rst), for all fields (C142)
-/

namespace Schnek.Props

open Schnek.Deck Schnek.Spec Schnek.Scanner Schnek.Lemma.Readback DeckState FieldTools

/-- `SimulationBlock`: examples/example_setup_fillfield.cpp, and the same in the manual -/
def fieldProgram : Program ℚ Unit :=
  { testProgram with classes := [("app", ⟨[], some [plainPar "Nx" (.int 0), plainPar "Ny" (.int 0), plainPar "Lx" (.float 0),
      plainPar "Ly" (.float 0), floatRO "x", floatRO "y", floatDef "F"]⟩)] }

/-- A setup file like that of the manual, with formulas without functions. -/
def fieldText : List Byte := bytes "Nx = 2;
Ny = 2;
Lx = 20;
Ly = 10;
float r = x + 2*y;
F = r*r;
"

/-- the parameters `x`, `y` and `F` -/
def xPar : Param := ⟨4, 4, true⟩
@[inherit_doc xPar] def yPar : Param := ⟨5, 5, true⟩
@[inherit_doc xPar] def fPar : Param := ⟨6, 6, false⟩

/-- a variable -/
def fvar (v : ℕ) : Expr ℚ Unit := .unary .id (.ref .float v)

/-- what is used of the file -/
def fieldFormulas (D : DeckState ℚ Unit) : Bool :=
  evaluable testOps D && handles D xPar && handles D yPar && handles D fPar && given D 4 (.ext .float 4) && given D 5 (.ext .float 5) &&
  given D 7 (.binary .add (.cons true (fvar 4) (.cons true (.binary .mul (.cons true (.cast .float two) (.cons true (fvar 5) .nil)))
    .nil))) &&
  given D 6 (.binary .mul (.cons true (fvar 7) (.cons true (fvar 7) .nil)))

theorem fieldText_read : (readText fieldProgram 10000 fieldText).any fieldFormulas = true := by
  decide +kernel

theorem fieldProgram_names : DistinctNames fieldProgram.classes := by
  intro c d specs h1 h2
  have : fieldProgram.classes.all (fun x => x.2.factory.all fun s => decide (s.map ParamSpec.name).Nodup) = true := by decide +kernel
  have h3 := List.all_eq_true.mp this (c, d) (Lemma.Blocks.lookup_mem h1)
  simpa [h2] using h3

/-- the file gives `F` this value -/
theorem field_value {D : DeckState ℚ Unit} (hf : fieldFormulas D = true) {σ : State ℚ Unit} {a b : ℚ} (ha : σ.ext 4 = .float a)
    (hb : σ.ext 5 = .float b) {v : Val ℚ} (hv : ValueOf testOps D σ 6 v) : v = .float ((a + 2 * b) * (a + 2 * b)) := by
  simp only [fieldFormulas, Bool.and_eq_true] at hf
  obtain ⟨⟨⟨⟨-, g4⟩, g5⟩, g7⟩, g6⟩ := hf
  have h4 : ∀ x, ValueOf testOps D σ 4 x → x = .float a := by
    intro x hx
    obtain ⟨f, -, he⟩ := valueOf_given g4 hx
    simpa [Expr.eval, ha, Val.ty] using he.symm
  have h5 : ∀ x, ValueOf testOps D σ 5 x → x = .float b := by
    intro x hx
    obtain ⟨f, -, he⟩ := valueOf_given g5 hx
    simpa [Expr.eval, hb, Val.ty] using he.symm
  have h7 : ∀ x, ValueOf testOps D σ 7 x → x = .float (a + 2 * b) := by
    intro x hx
    obtain ⟨f, hm, he⟩ := valueOf_given g7 hx
    have e4 := h4 _ (hm 4 (by simp [fvar, two, mentioned, mentionedTerms]))
    have e5 := h5 _ (hm 5 (by simp [fvar, two, mentioned, mentionedTerms]))
    simp [Expr.eval, Terms.evalFirst, Terms.evalRest, fvar, two, UnOp.eval, BinOp.eval, BinOp.positive, e4, e5, Val.ty, convert, testOps,
      ratOps] at he
    exact he.symm
  obtain ⟨f, hm, he⟩ := valueOf_given g6 hv
  have e7 := h7 _ (hm 7 (by simp [fvar, mentioned, mentionedTerms]))
  simp [Expr.eval, Terms.evalFirst, Terms.evalRest, fvar, UnOp.eval, BinOp.eval, BinOp.positive, e7, Val.ty, testOps, ratOps] at he
  exact he.symm

/-- C142 for the example of the manual: whatever the program has done before and whatever the field, if `x` and `y` are independent then
`fill_field(dataField, x, fieldInit, updater, paramField)` gives each cell the square of `x + 2 y`, at the position of that cell. -/
theorem C142_manual : ∃ D, Parses fieldProgram.host fieldProgram.begin fieldText (.ok D) ∧ ∀ M, MapOf D M →
    ∀ (f : FieldShape ℚ 2) (s s' : FillState ℚ Unit 1), Session fieldProgram.host.ops D M s.updater s.vars →
    xPar.var ∈ s.updater.independent → yPar.var ∈ s.updater.independent → Usable s.data → f.range = s.data.range →
    ∀ l N, f.range.IterLoop f.range.iterBegin l →
    fillFieldDependent fieldProgram.host.ops D.withDummy.expr M N f ![xPar.target, yPar.target] fPar.target fPar l s = some s' →
    ∀ p, InBox s.data.range.lo s.data.range.hi p → s'.data.get? p = some (.float
      ((f.indexToPosition 0 (p 0) + 2 * f.indexToPosition 1 (p 1)) * (f.indexToPosition 0 (p 0) + 2 * f.indexToPosition 1 (p 1)))) := by
  have h := fieldText_read
  rcases hD : readText fieldProgram 10000 fieldText with _ | D
  · rw [hD] at h; cases h
  rw [hD, Option.any_some] at h
  obtain ⟨hp, deck, hdeck⟩ := readText_parses hD
  refine ⟨D, hp, fun M hM f s s' hs hx hy hg hf l N hl hu p hp => ?_⟩
  have hcc := h
  simp only [fieldFormulas, Bool.and_eq_true] at hcc
  obtain ⟨⟨⟨⟨⟨⟨⟨hev, h1⟩, h2⟩, h3⟩, -⟩, -⟩, -⟩, -⟩ := hcc
  have hcoord : Coordinates D s.updater ![xPar.target, yPar.target] := by
    intro i
    match i with
    | 0 => exact ⟨xPar, handles_handle h1, rfl, rfl, hx⟩
    | 1 => exact ⟨yPar, handles_handle h2, rfl, rfl, hy⟩
  obtain ⟨-, hc, -⟩ := C142_fill_field_partial fieldProgram fieldProgram_names deck D hdeck (evaluable_eval hev) M hM f
    ![xPar.target, yPar.target] (by decide) s s' hs hcoord fPar (handles_handle h3) rfl hg hf l hl N hu
  obtain ⟨v, hv, hval⟩ := hc p hp
  rw [hv]
  refine congrArg some (field_value h ?_ ?_ (hval (setCoords f ![xPar.target, yPar.target] p s.vars).ext ?_))
  · exact ((setCoords_spec f ![xPar.target, yPar.target] (by decide) p s.vars).2.2.2.2 4).1 0 rfl
  · exact ((setCoords_spec f ![xPar.target, yPar.target] (by decide) p s.vars).2.2.2.2 5).1 1 rfl
  · exact (setCoords_spec f ![xPar.target, yPar.target] (by decide) p s.vars).2.2.2.2

/-- the field of the manual: examples/example_setup_fillfield.cpp, without ghost cells -/
def manualField : FieldShape ℚ 2 := .ofSize ![2, 2] ![0, 0] ![20, 10] ![false, true] 0

/-- `fillValues` of the example -/
def fieldRun (D : DeckState ℚ Unit) : Option (List (Val ℚ)) :=
  (DepMap.create D.withDummy.state D.withDummy.expr D.heap.length
    (DeckState.blockTree D.withDummy.store D.withDummy.store.blocks.length 0)).bind fun M =>
  (fillFieldDependent testOps D.withDummy.expr M 1000 manualField ![4, 5] 6 fPar [![0, 0], ![0, 1], ![1, 0], ![1, 1]]
    ⟨{ Updater.create D.heap.length with independent := {5, 4, D.heap.length}, isValid := false },
      { D.withDummy.state with ext := Function.update D.ext D.nextExt (.int 0) },
      Grid.create .c manualField.range fun _ => .int 0⟩).map fun s => s.data.buf

theorem fieldText_run : (readText fieldProgram 10000 fieldText).any (fun D => handles D xPar && handles D yPar && handles D fPar &&
    decide (fieldRun D = some [.float 25, .float 225, .float 225, .float 625])) = true := by
  decide +kernel

/-- the hypotheses are met by the example, and `fill_field` returns -/
example : ∃ D M U σ s', Parses fieldProgram.host fieldProgram.begin fieldText (.ok D) ∧ MapOf D M ∧
    Session fieldProgram.host.ops D M U σ ∧ xPar.var ∈ U.independent ∧ yPar.var ∈ U.independent ∧
    Usable (Grid.create .c manualField.range fun _ => (Val.int 0 : Val ℚ)) ∧
    fillFieldDependent fieldProgram.host.ops D.withDummy.expr M 1000 manualField ![4, 5] 6 fPar [![0, 0], ![0, 1], ![1, 0], ![1, 1]]
      ⟨U, σ, Grid.create .c manualField.range fun _ => .int 0⟩ = some s' ∧
    s'.data.buf = [.float 25, .float 225, .float 225, .float 625] := by
  have h := fieldText_run
  rcases hD : readText fieldProgram 10000 fieldText with _ | D
  · rw [hD] at h; cases h
  rw [hD] at h
  simp only [Option.any_some, Bool.and_eq_true, decide_eq_true_eq] at h
  obtain ⟨⟨⟨h1, h2⟩, h3⟩, hr⟩ := h
  unfold fieldRun at hr
  rw [Option.bind_eq_some_iff] at hr
  obtain ⟨M, hM, hr⟩ := hr
  rw [Option.map_eq_some_iff] at hr
  obtain ⟨s', hu, hr⟩ := hr
  refine ⟨D, M, _, _, s', (readText_parses hD).1, hM, ?_, ?_, ?_, C07_create _ _ _ (by decide) (by decide), hu, hr⟩
  · have h0 : Session testOps D M (Updater.create D.heap.length)
        { D.withDummy.state with ext := Function.update D.ext D.nextExt (.int 0) } := .start D.ext fun _ _ _ => rfl
    exact Session.independent yPar (.independent xPar h0 (handles_handle h1) rfl) (handles_handle h2) rfl
  · simp [xPar]
  · simp [yPar]

/-! ## an exception -/

/-- a program with a read-only `x` and a parameter `F`, where only small numbers can be written so that they can be read again -/
def throwProgram : Program ℚ Unit :=
  { testProgram with
    host := ⟨smallOps, testFunc⟩
    classes := [("app", ⟨[], some [floatRO "x", floatDef "F"]⟩)] }

/-- `x` written as text and read as a number -/
def throwText : List Byte := bytes "string s = x + \"\";
F = s;
"

/-- the parameters `x` and `F` of this program -/
def xThrow : Param := ⟨0, 0, true⟩
@[inherit_doc xThrow] def fThrow : Param := ⟨1, 1, false⟩

/-- the updater has the parameter already -/
def throwRun (D : DeckState ℚ Unit) : Option (List (Val ℚ)) :=
  (DepMap.create D.withDummy.state D.withDummy.expr D.heap.length
    (DeckState.blockTree D.withDummy.store D.withDummy.store.blocks.length 0)).bind fun M =>
  (fillThrow smallOps D.withDummy.expr M 1000 chainField (fun _ => 0) 1 [![-1], ![0], ![1], ![2], ![3]]
    ⟨{ Updater.create D.heap.length with independent := {0, D.heap.length}, dependent := {1}, params := [fThrow], isValid := false },
      { D.withDummy.state with ext := Function.update D.ext D.nextExt (.int 0) },
      Grid.create .c chainField.range fun _ => .int 0⟩).map fun s => s.data.buf

theorem throwText_run : (readText throwProgram 10000 throwText).any (fun D => handles D xThrow && handles D fThrow &&
    evaluable smallOps D && !D.withDummy.state.fixed 1 &&
    decide (throwRun D = some [.float 1, .float 1, .float 1, .int 0, .int 0])) = true := by
  decide +kernel

/-- the hypotheses of `C142_throws_partial` are met: the evaluation fails in the fourth of five cells -/
example : ∃ D M U σ s', Parses throwProgram.host throwProgram.begin throwText (.ok D) ∧
    (∀ v e, DefinedBy D v e → e.eval throwProgram.host.ops D.state ≠ none) ∧ MapOf D M ∧
    Session throwProgram.host.ops D M U σ ∧ Coordinates (n := 0) D U (fun _ => 0) ∧ fThrow ∈ U.params ∧
    Usable (Grid.create .c chainField.range fun _ => (Val.int 0 : Val ℚ)) ∧
    fillThrow throwProgram.host.ops D.withDummy.expr M 1000 chainField (fun _ => 0) fThrow.target [![-1], ![0], ![1], ![2], ![3]]
      ⟨U, σ, Grid.create .c chainField.range fun _ => .int 0⟩ = some s' ∧
    s'.data.buf = [.float 1, .float 1, .float 1, .int 0, .int 0] := by
  have h := throwText_run
  rcases hD : readText throwProgram 10000 throwText with _ | D
  · rw [hD] at h; cases h
  rw [hD] at h
  simp only [Option.any_some, Bool.and_eq_true, decide_eq_true_eq, Bool.not_eq_true'] at h
  obtain ⟨⟨⟨⟨h1, h2⟩, hev⟩, hf⟩, hr⟩ := h
  unfold throwRun at hr
  rw [Option.bind_eq_some_iff] at hr
  obtain ⟨M, hM, hr⟩ := hr
  rw [Option.map_eq_some_iff] at hr
  obtain ⟨s', hu, hr⟩ := hr
  refine ⟨D, M, _, _, s', (readText_parses hD).1, evaluable_eval hev, hM, ?_, ?_, ?_, C07_create _ _ _ (by decide) (by decide), hu, hr⟩
  · have h0 : Session smallOps D M (Updater.create D.heap.length)
        { D.withDummy.state with ext := Function.update D.ext D.nextExt (.int 0) } := .start D.ext fun _ _ _ => rfl
    have h3 := Session.dependent fThrow (.independent xThrow h0 (handles_handle h1) rfl) (handles_handle h2) rfl
    unfold Updater.addDependent at h3
    have hf' : D.withDummy.state.fixed fThrow.var = false := hf
    simp only [hf', Bool.false_eq_true, if_false] at h3
    exact h3
  · exact fun _ => ⟨xThrow, handles_handle h1, rfl, rfl, by simp [xThrow]⟩
  · simp

end Schnek.Props
