import Verif.Lemma.Readback

/-!
# The tests of the project (testsuite/test_parser.cpp), and what follows for all values (C141)
-/

namespace Schnek.Props

open Schnek.Deck Schnek.Spec Schnek.Scanner Schnek.Lemma.Readback DeckState

/-- the number `ddd.ddde±dd` -/
def decimal (s : String) : Option ℚ :=
  let (m, e) := (s.toList.takeWhile (· ≠ 'e'), (s.toList.dropWhile (· ≠ 'e')).drop 1)
  let (i, f) := (m.takeWhile (· ≠ '.'), (m.dropWhile (· ≠ '.')).drop 1)
  (digits (String.ofList (i ++ f))).bind fun n =>
    let x : ℚ := (n : ℚ) / 10 ^ f.length
    match e with
    | [] => some x
    | '-' :: e => (digits (String.ofList e)).map fun k => x / 10 ^ k.toNat
    | e => (digits (String.ofList e)).map fun k => x * 10 ^ k.toNat

/-- exact numbers in place of `double` -/
def testOps : FloatOps ℚ :=
  { ratOps with
    powInt := fun a b => if 0 ≤ b then some (a ^ b.toNat) else none
    readInt := digits
    readFloat := decimal }

/-- a function of one number -/
def fun1 (f : ℚ → ℚ) : Func ℚ Unit where
  params := [.float]
  result := .float
  updateAlways := false
  call := fun _ args => match args with
    | [.float x] => some (.float (f x))
    | _ => none
  pure := fun _ _ _ _ => rfl
  typed := by
    intro w args v h
    split at h
    · simp only [Option.some.injEq] at h; subst h; rfl
    · cases h

/-- functions in place of those of `<cmath>`, for which nothing depends on what they are -/
def testFunc (n : String) : Option (Func ℚ Unit) :=
  if n = "exp" then some (fun1 fun x => 1 + x) else if n = "sin" then some (fun1 fun x => x) else
  if n = "cos" then some (fun1 fun x => 1 - x * x / 2) else none

/-- a read-only `double` -/
def floatRO (n : String) : ParamSpec ℚ := ⟨n, .float 0, none, true, false, by simp⟩

/-- a read-only `int` -/
def intRO (n : String) (i : ℤ) : ParamSpec ℚ := ⟨n, .int i, none, true, false, by simp⟩

/-- a `double` with default 0 -/
def floatDef (n : String) : ParamSpec ℚ := ⟨n, .float 0, some (.float 0), false, false, by simp [Val.ty]⟩

/-- an `int` with default 0 -/
def intDef (n : String) : ParamSpec ℚ := ⟨n, .int 0, some (.int 0), false, false, by simp [Val.ty]⟩

/-- a parameter without default -/
def plainPar (n : String) (v : Val ℚ) : ParamSpec ℚ := ⟨n, v, none, false, false, by simp⟩

/-- `ParserTest`: testsuite/test_parser.cpp 220-322 -/
def testProgram : Program ℚ Unit where
  host := ⟨testOps, testFunc⟩
  name := "test_parser"
  className := "app"
  classes := [
    ("app", ⟨["Collection"], some [floatRO "x", floatRO "y", intRO "xi" 256, intRO "yi" 16,
      floatDef "test1", floatDef "test2", floatDef "test3", floatDef "test4", floatDef "test5",
      intDef "test_int1", intDef "test_int2", intDef "test_int3", intDef "test_int4", intDef "test_int5",
      plainPar "dx" (.float 0), plainPar "dy" (.float 0), plainPar "dz" (.float 0), plainPar "nsteps" (.int 0), plainPar "output" (.str "")]⟩),
    ("Collection", ⟨["Values", "Constants"], some []⟩), ("Values", ⟨[], some []⟩), ("Constants", ⟨[], some []⟩)]
  restr := true
  ext := fun _ => .int 0
  world := ()
  nextId := 0
  nextId_nonneg := le_rfl

/-- `parser_input_precedence_add_1`: testsuite/test_parser.cpp 94-103 -/
def addText : List Byte := bytes "int a = xi;
int b = yi;
int c = 2;
test_int1 = 2*a - b;
test_int2 = 2*a - b - 3;
test_int3 = -2*a - b - c;
test_int4 = 2* a-3 *b + c;
test_int5 = 2*(a-3)*b + c;
"

/-- `parser_input_precedence_mult_1`: testsuite/test_parser.cpp 116-125 -/
def multText : List Byte := bytes "int a = xi;
int b = yi;
int c = 2;
test_int1 = 2*a/b;
test_int2 = 2*a/b/3;
test_int3 = a/b/c;
test_int4 = 2*a/(3*b) * c;
test_int5 = 2*(a/3)*b * c;
"

/-- `2` -/
def two : Expr ℚ Unit := .unary .id (.value (.int 2))
/-- `3` -/
def three : Expr ℚ Unit := .unary .id (.value (.int 3))
/-- a variable -/
def var (v : ℕ) : Expr ℚ Unit := .unary .id (.ref .int v)

/-- the operation on integers -/
def intOp : BinOp → ℤ → ℤ → ℤ
  | .add, a, b => a + b
  | .sub, a, b => a - b
  | .mul, a, b => a * b
  | .div, a, b => a.tdiv b
  | .pow, _, _ => 0

/-- nothing but `i` -/
def Yields (O : FloatOps ℚ) (σ : State ℚ Unit) (e : Expr ℚ Unit) (i : ℤ) : Prop := ∀ v, e.eval O σ = some v → v = .int i

/-- nothing but `r`, beginning with `i` -/
def YieldsRest (O : FloatOps ℚ) (σ : State ℚ Unit) (op : BinOp) (es : Terms ℚ Unit) (i r : ℤ) : Prop :=
  ∀ v, es.evalRest O σ op (.int i) = some v → v = .int r

theorem binary_int {O : FloatOps ℚ} {o : BinOp} (ho : o ≠ .pow) {a b : ℤ} {v : Val ℚ} (h : o.eval O (.int a) (.int b) = some v) :
    v = .int (intOp o a b) := by
  have hc : ∀ {i : ℤ}, (checkInt i).map Val.int = some v → v = .int i := by
    intro i h
    unfold checkInt at h
    split at h
    · simpa using h.symm
    · simp at h
  cases o
  · exact hc h
  · exact hc h
  · exact hc h
  · have h' : (if b = 0 then none else (checkInt (a.tdiv b)).map Val.int) = some v := h
    split at h'
    · cases h'
    · exact hc h'
  · exact absurd rfl ho

section
variable {O : FloatOps ℚ} {σ : State ℚ Unit}

theorem yields_two : Yields O σ two 2 := by intro v h; simpa [two, Expr.eval, UnOp.eval] using h.symm
theorem yields_three : Yields O σ three 3 := by intro v h; simpa [three, Expr.eval, UnOp.eval] using h.symm
theorem yields_var {u : ℕ} {i : ℤ} (hu : σ.value u = .int i) : Yields O σ (var u) i := by
  intro v h
  simpa [var, Expr.eval, UnOp.eval, hu, Val.ty] using h.symm
theorem yields_id {e : Expr ℚ Unit} {i : ℤ} (he : Yields O σ e i) : Yields O σ (.unary .id e) i := by
  intro v h
  simp only [Expr.eval, UnOp.eval, Option.bind_eq_some_iff, Option.some.injEq, exists_eq_right] at h
  exact he v h
theorem yields_neg {e : Expr ℚ Unit} {i : ℤ} (he : Yields O σ e i) : Yields O σ (.unary .neg e) (-i) := by
  intro v h
  simp only [Expr.eval, Option.bind_eq_some_iff] at h
  obtain ⟨w, hw, h⟩ := h
  rw [he w hw] at h
  simp only [UnOp.eval, checkInt] at h
  split at h
  · simpa using h.symm
  · cases h
theorem yields_bin {p : Bool} {op : BinOp} {e : Expr ℚ Unit} {es : Terms ℚ Unit} {i r : ℤ} (he : Yields O σ e i)
    (hr : YieldsRest O σ op es i r) : Yields O σ (.binary op (.cons p e es)) r := by
  intro v h
  simp only [Expr.eval, Terms.evalFirst, Option.bind_eq_some_iff] at h
  obtain ⟨w, hw, h⟩ := h
  rw [he w hw] at h
  exact hr v h
theorem yields_nil {op : BinOp} {i : ℤ} : YieldsRest O σ op .nil i i := by
  intro v h
  simpa [Terms.evalRest] using h.symm
theorem yields_cons {p : Bool} {op : BinOp} (ho : (if p then op.positive else op.negative) ≠ .pow) {e : Expr ℚ Unit} {es : Terms ℚ Unit}
    {i j r : ℤ} (he : Yields O σ e j) (hr : YieldsRest O σ op es (intOp (if p then op.positive else op.negative) i j) r) :
    YieldsRest O σ op (.cons p e es) i r := by
  intro v h
  simp only [Terms.evalRest, Option.bind_eq_some_iff] at h
  obtain ⟨w, hw, w', hw', h⟩ := h
  rw [he w hw] at hw'
  rw [binary_int ho hw'] at h
  exact hr v h

end

/-- `2*a` -/
def twoA : Expr ℚ Unit := .binary .mul (.cons true two (.cons true (var 19) .nil))

/-- the parameters `xi` and `yi`, and `test_int1` to `test_int5` -/
def xi : Param := ⟨2, 2, true⟩
@[inherit_doc xi] def yi : Param := ⟨3, 3, true⟩
@[inherit_doc xi] def testInt (k : ℕ) : Param := ⟨8 + k, 8 + k, false⟩

/-- what the tests on integers share -/
def common (D : DeckState ℚ Unit) : Bool :=
  evaluable testOps D && handles D xi && handles D yi && given D 2 (.ext .int 2) && given D 3 (.ext .int 3) &&
    given D 19 (var 2) && given D 20 (var 3) && constantly D 21 (.int 2)

/-- the formulas of `addText` -/
def addFormulas (D : DeckState ℚ Unit) : Bool :=
  given D 9 (.binary .sub (.cons true twoA (.cons false (var 20) .nil))) &&
  given D 10 (.binary .sub (.cons true twoA (.cons false (var 20) (.cons false three .nil)))) &&
  given D 11 (.binary .sub (.cons true (.unary .neg twoA) (.cons false (var 20) (.cons false (var 21) .nil)))) &&
  given D 12 (.binary .sub (.cons true twoA (.cons false (.binary .mul (.cons true three (.cons true (var 20) .nil)))
    (.cons true (var 21) .nil)))) &&
  given D 13 (.binary .add (.cons true (.binary .mul (.cons true two (.cons true (.unary .id (.binary .sub (.cons true (var 19)
    (.cons false three .nil)))) (.cons true (var 20) .nil)))) (.cons true (var 21) .nil)))

/-- the formulas of `multText` -/
def multFormulas (D : DeckState ℚ Unit) : Bool :=
  given D 9 (.binary .mul (.cons true two (.cons true (var 19) (.cons false (var 20) .nil)))) &&
  given D 10 (.binary .mul (.cons true two (.cons true (var 19) (.cons false (var 20) (.cons false three .nil))))) &&
  given D 11 (.binary .div (.cons true (var 19) (.cons false (var 20) (.cons false (var 21) .nil)))) &&
  given D 12 (.binary .mul (.cons true two (.cons true (var 19) (.cons false (.unary .id (.binary .mul (.cons true three
    (.cons true (var 20) .nil)))) (.cons true (var 21) .nil))))) &&
  given D 13 (.binary .mul (.cons true two (.cons true (.unary .id (.binary .div (.cons true (var 19) (.cons false three .nil))))
    (.cons true (var 20) (.cons true (var 21) .nil)))))

theorem addText_read : (readText testProgram 10000 addText).any (fun D => common D && addFormulas D) = true := by
  decide +kernel

theorem multText_read : (readText testProgram 10000 multText).any (fun D => common D && multFormulas D) = true := by
  decide +kernel

theorem testProgram_names : DistinctNames testProgram.classes := by
  intro c d specs h1 h2
  have : testProgram.classes.all (fun x => x.2.factory.all fun s => decide (s.map ParamSpec.name).Nodup) = true := by decide +kernel
  have h3 := List.all_eq_true.mp this (c, d) (Lemma.Blocks.lookup_mem h1)
  simpa [h2] using h3

/-- the results of a formula in terms of `a`, `b` and `c` -/
theorem formula_result {D : DeckState ℚ Unit} {σ : State ℚ Unit} (hc : common D = true) {a b : ℤ} (ha : σ.ext 2 = .int a)
    (hb : σ.ext 3 = .int b) {v : ℕ} {e : Expr ℚ Unit} (hg : given D v e = true) {x : Val ℚ} (hv : ValueOf testOps D σ v x) :
    ∃ f : ℕ → Val ℚ, (19 ∈ mentioned e → f 19 = .int a) ∧ (20 ∈ mentioned e → f 20 = .int b) ∧ (21 ∈ mentioned e → f 21 = .int 2) ∧
      e.eval testOps { σ with value := f } = some x := by
  simp only [common, Bool.and_eq_true] at hc
  obtain ⟨⟨⟨⟨⟨⟨⟨-, -⟩, -⟩, g2⟩, g3⟩, g19⟩, g20⟩, g21⟩ := hc
  have h2 : ∀ x, ValueOf testOps D σ 2 x → x = .int a := by
    intro x hx
    obtain ⟨f, -, he⟩ := valueOf_given g2 hx
    simpa [Expr.eval, ha, Val.ty] using he.symm
  have h3 : ∀ x, ValueOf testOps D σ 3 x → x = .int b := by
    intro x hx
    obtain ⟨f, -, he⟩ := valueOf_given g3 hx
    simpa [Expr.eval, hb, Val.ty] using he.symm
  have h19 : ∀ x, ValueOf testOps D σ 19 x → x = .int a := by
    intro x hx
    obtain ⟨f, hm, he⟩ := valueOf_given g19 hx
    exact yields_var (h2 _ (hm 2 (by simp [var, mentioned]))) _ he
  have h20 : ∀ x, ValueOf testOps D σ 20 x → x = .int b := by
    intro x hx
    obtain ⟨f, hm, he⟩ := valueOf_given g20 hx
    exact yields_var (h3 _ (hm 3 (by simp [var, mentioned]))) _ he
  obtain ⟨f, hm, he⟩ := valueOf_given hg hv
  exact ⟨f, fun h => h19 _ (hm 19 h), fun h => h20 _ (hm 20 h), fun h => valueOf_constantly g21 (hm 21 h), he⟩

theorem session_result {D : DeckState ℚ Unit} {deck : List (Stmt ℚ)} (hdeck : testProgram.begin.parse testProgram.host deck = some D)
    (hc : common D = true) {M : DepMap} (hM : MapOf D M) {U U' : Updater} {σ σ' : State ℚ Unit} {n : ℕ}
    (hs : Session testProgram.host.ops D M U σ) (hu : U.update testProgram.host.ops D.withDummy.expr M n σ = some (U', σ')) {a b : ℤ}
    (ha : σ.ext xi.target = .int a) (hb : σ.ext yi.target = .int b) {p : Param} {e : Expr ℚ Unit} {r : ℤ}
    (hg : given D p.var e = true) (hy' : ∀ f : ℕ → Val ℚ, (19 ∈ mentioned e → f 19 = .int a) → (20 ∈ mentioned e → f 20 = .int b) →
      (21 ∈ mentioned e → f 21 = .int 2) → Yields testOps { σ' with value := f } e r) (hm : p ∈ U.params) : σ'.ext p.target = .int r := by
  have hcc := hc
  simp only [common, Bool.and_eq_true] at hcc
  obtain ⟨⟨⟨⟨⟨⟨⟨hev, hx⟩, hy⟩, -⟩, -⟩, -⟩, -⟩, -⟩ := hcc
  obtain ⟨k1, k2⟩ := C141_follows_partial testProgram testProgram_names deck D hdeck (evaluable_eval hev) M hM U U' σ σ' hs n hu p hm
  obtain ⟨f, h1, h2, h3, h4⟩ := formula_result hc ((k2 xi (handles_handle hx) rfl).trans ha) ((k2 yi (handles_handle hy) rfl).trans hb)
    hg k1
  exact hy' f h1 h2 h3 _ h4

/-- C141 for `parser_precedence_add_1`, testsuite/test_parser.cpp 392-421, for all values of `xi` and `yi` (there: between -5 and 5) and
everything the program can do before. -/
theorem C141_precedence_add : ∃ D, Parses testProgram.host testProgram.begin addText (.ok D) ∧ ∀ M, MapOf D M →
    ∀ U σ n U' σ', Session testProgram.host.ops D M U σ → U.update testProgram.host.ops D.withDummy.expr M n σ = some (U', σ') →
    ∀ a b : ℤ, σ.ext xi.target = .int a → σ.ext yi.target = .int b →
      (testInt 1 ∈ U.params → σ'.ext (testInt 1).target = .int (2 * a - b)) ∧
      (testInt 2 ∈ U.params → σ'.ext (testInt 2).target = .int (2 * a - b - 3)) ∧
      (testInt 3 ∈ U.params → σ'.ext (testInt 3).target = .int (-(2 * a) - b - 2)) ∧
      (testInt 4 ∈ U.params → σ'.ext (testInt 4).target = .int (2 * a - 3 * b + 2)) ∧
      (testInt 5 ∈ U.params → σ'.ext (testInt 5).target = .int (2 * (a - 3) * b + 2)) := by
  have h := addText_read
  rcases hD : readText testProgram 10000 addText with _ | D
  · rw [hD] at h; cases h
  rw [hD] at h
  simp only [Option.any_some, Bool.and_eq_true] at h
  obtain ⟨hc, hf⟩ := h
  obtain ⟨hp, deck, hdeck⟩ := readText_parses hD
  refine ⟨D, hp, fun M hM U σ n U' σ' hs hu a b ha hb => ?_⟩
  simp only [addFormulas, Bool.and_eq_true] at hf
  obtain ⟨⟨⟨⟨f9, f10⟩, f11⟩, f12⟩, f13⟩ := hf
  have hA : ∀ {f : ℕ → Val ℚ}, f 19 = .int a → Yields testOps { σ' with value := f } twoA (2 * a) := fun h =>
    yields_bin yields_two (yields_cons (by decide) (yields_var h) yields_nil)
  refine ⟨session_result hdeck hc hM hs hu ha hb f9 ?_, session_result hdeck hc hM hs hu ha hb f10 ?_,
    session_result hdeck hc hM hs hu ha hb f11 ?_, session_result hdeck hc hM hs hu ha hb f12 ?_,
    session_result hdeck hc hM hs hu ha hb f13 ?_⟩
  · exact fun f h1 h2 _ => yields_bin (hA (h1 (by decide))) (yields_cons (by decide) (yields_var (h2 (by decide))) yields_nil)
  · exact fun f h1 h2 _ => yields_bin (hA (h1 (by decide))) (yields_cons (by decide) (yields_var (h2 (by decide)))
      (yields_cons (by decide) yields_three yields_nil))
  · exact fun f h1 h2 h3 => yields_bin (yields_neg (hA (h1 (by decide)))) (yields_cons (by decide) (yields_var (h2 (by decide)))
      (yields_cons (by decide) (yields_var (h3 (by decide))) yields_nil))
  · exact fun f h1 h2 h3 => yields_bin (hA (h1 (by decide))) (yields_cons (by decide)
      (yields_bin yields_three (yields_cons (by decide) (yields_var (h2 (by decide))) yields_nil))
      (yields_cons (by decide) (yields_var (h3 (by decide))) yields_nil))
  · exact fun f h1 h2 h3 => yields_bin (yields_bin yields_two (yields_cons (by decide) (yields_id (yields_bin (yields_var (h1 (by decide)))
      (yields_cons (by decide) yields_three yields_nil))) (yields_cons (by decide) (yields_var (h2 (by decide))) yields_nil)))
      (yields_cons (by decide) (yields_var (h3 (by decide))) yields_nil)

/-- C141 for `parser_precedence_mult_1`, testsuite/test_parser.cpp 455-484, for all values of `xi` and `yi`; `tdiv` is division as in
C++. -/
theorem C141_precedence_mult : ∃ D, Parses testProgram.host testProgram.begin multText (.ok D) ∧ ∀ M, MapOf D M →
    ∀ U σ n U' σ', Session testProgram.host.ops D M U σ → U.update testProgram.host.ops D.withDummy.expr M n σ = some (U', σ') →
    ∀ a b : ℤ, σ.ext xi.target = .int a → σ.ext yi.target = .int b →
      (testInt 1 ∈ U.params → σ'.ext (testInt 1).target = .int ((2 * a).tdiv b)) ∧
      (testInt 2 ∈ U.params → σ'.ext (testInt 2).target = .int (((2 * a).tdiv b).tdiv 3)) ∧
      (testInt 3 ∈ U.params → σ'.ext (testInt 3).target = .int ((a.tdiv b).tdiv 2)) ∧
      (testInt 4 ∈ U.params → σ'.ext (testInt 4).target = .int ((2 * a).tdiv (3 * b) * 2)) ∧
      (testInt 5 ∈ U.params → σ'.ext (testInt 5).target = .int (2 * a.tdiv 3 * b * 2)) := by
  have h := multText_read
  rcases hD : readText testProgram 10000 multText with _ | D
  · rw [hD] at h; cases h
  rw [hD] at h
  simp only [Option.any_some, Bool.and_eq_true] at h
  obtain ⟨hc, hf⟩ := h
  obtain ⟨hp, deck, hdeck⟩ := readText_parses hD
  refine ⟨D, hp, fun M hM U σ n U' σ' hs hu a b ha hb => ?_⟩
  simp only [multFormulas, Bool.and_eq_true] at hf
  obtain ⟨⟨⟨⟨f9, f10⟩, f11⟩, f12⟩, f13⟩ := hf
  refine ⟨session_result hdeck hc hM hs hu ha hb f9 ?_, session_result hdeck hc hM hs hu ha hb f10 ?_,
    session_result hdeck hc hM hs hu ha hb f11 ?_, session_result hdeck hc hM hs hu ha hb f12 ?_,
    session_result hdeck hc hM hs hu ha hb f13 ?_⟩
  · exact fun f h1 h2 _ => yields_bin yields_two (yields_cons (by decide) (yields_var (h1 (by decide)))
      (yields_cons (by decide) (yields_var (h2 (by decide))) yields_nil))
  · exact fun f h1 h2 _ => yields_bin yields_two (yields_cons (by decide) (yields_var (h1 (by decide)))
      (yields_cons (by decide) (yields_var (h2 (by decide))) (yields_cons (by decide) yields_three yields_nil)))
  · exact fun f h1 h2 h3 => yields_bin (yields_var (h1 (by decide))) (yields_cons (by decide) (yields_var (h2 (by decide)))
      (yields_cons (by decide) (yields_var (h3 (by decide))) yields_nil))
  · exact fun f h1 h2 h3 => yields_bin yields_two (yields_cons (by decide) (yields_var (h1 (by decide))) (yields_cons (by decide)
      (yields_id (yields_bin yields_three (yields_cons (by decide) (yields_var (h2 (by decide))) yields_nil)))
      (yields_cons (by decide) (yields_var (h3 (by decide))) yields_nil)))
  · exact fun f h1 h2 h3 => yields_bin yields_two (yields_cons (by decide) (yields_id (yields_bin (yields_var (h1 (by decide)))
      (yields_cons (by decide) yields_three yields_nil))) (yields_cons (by decide) (yields_var (h2 (by decide)))
      (yields_cons (by decide) (yields_var (h3 (by decide))) yields_nil)))

/-! ## the test itself -/

/-- the updater after the lines 397-406 of testsuite/test_parser.cpp; none of the parameters is a constant -/
def testUpdater (n : ℕ) : Updater where
  updateList := []
  independent := {3, 2, n}
  dependent := {13, 12, 11, 10, 9}
  params := [testInt 1, testInt 2, testInt 3, testInt 4, testInt 5]
  isValid := false

/-- what the program sees of `update` after the assignments `xi = a`, `yi = b` -/
def testRun (D : DeckState ℚ Unit) (a b : ℤ) : Option (List (Val ℚ)) :=
  (DepMap.create D.withDummy.state D.withDummy.expr D.heap.length
    (DeckState.blockTree D.withDummy.store D.withDummy.store.blocks.length 0)).bind fun M =>
  ((testUpdater D.heap.length).update testOps D.withDummy.expr M 1000 { D.withDummy.state with
    ext := Function.update (Function.update (Function.update D.ext 2 (.int a)) 3 (.int b)) D.nextExt (.int 0) }).map fun r =>
    [r.2.ext 9, r.2.ext 10, r.2.ext 11, r.2.ext 12, r.2.ext 13]

/-- nothing is missing in `testUpdater` -/
def testReady (D : DeckState ℚ Unit) : Bool :=
  [xi, yi, testInt 1, testInt 2, testInt 3, testInt 4, testInt 5].all (handles D) &&
    [9, 10, 11, 12, 13].all fun v => !D.withDummy.state.fixed v

theorem addText_run : (readText testProgram 10000 addText).any (fun D => testReady D &&
    decide (testRun D (-5) 4 = some [.int (-14), .int (-17), .int 4, .int (-20), .int (-62)])) = true := by
  decide +kernel

/-- The hypotheses of C141 are met by the test: with `xi = -5` and `yi = 4` (and what else is there) there is a result. -/
example : ∃ D M U σ U' σ', Parses testProgram.host testProgram.begin addText (.ok D) ∧ MapOf D M ∧
    Session testProgram.host.ops D M U σ ∧ U.update testProgram.host.ops D.withDummy.expr M 1000 σ = some (U', σ') ∧
    σ.ext xi.target = .int (-5) ∧ σ.ext yi.target = .int 4 ∧ testInt 5 ∈ U.params ∧ σ'.ext (testInt 5).target = .int (-62) := by
  have h := addText_run
  rcases hD : readText testProgram 10000 addText with _ | D
  · rw [hD] at h; cases h
  rw [hD] at h
  simp only [Option.any_some, Bool.and_eq_true, decide_eq_true_eq, testReady] at h
  obtain ⟨⟨hh, hf⟩, hr⟩ := h
  have hh' := fun p hp => handles_handle (List.all_eq_true.mp hh p hp)
  have hf' : ∀ v ∈ [9, 10, 11, 12, 13], D.withDummy.state.fixed v = false := fun v hv => by
    simpa using List.all_eq_true.mp hf v hv
  unfold testRun at hr
  rw [Option.bind_eq_some_iff] at hr
  obtain ⟨M, hM, hr⟩ := hr
  rw [Option.map_eq_some_iff] at hr
  obtain ⟨⟨U', σ'⟩, hu, hr⟩ := hr
  refine ⟨D, M, _, _, U', σ', (readText_parses hD).1, hM, ?_, hu, ?_, ?_, by simp [testUpdater], ?_⟩
  · have h0 : Session testOps D M (Updater.create D.heap.length)
        { D.withDummy.state with ext := Function.update D.ext D.nextExt (.int 0) } := .start D.ext fun _ _ _ => rfl
    have h1 := Session.independent yi (.independent xi h0 (hh' _ (by decide)) rfl) (hh' _ (by decide)) rfl
    have step : ∀ {U : Updater} (p : Param), p ∈ [testInt 1, testInt 2, testInt 3, testInt 4, testInt 5] →
        Session testOps D M U { D.withDummy.state with ext := Function.update D.ext D.nextExt (.int 0) } → p ∉ U.params →
        Session testOps D M { U with params := U.params ++ [p], dependent := insert p.var U.dependent, isValid := false }
          { D.withDummy.state with ext := Function.update D.ext D.nextExt (.int 0) } := by
      intro U p hp hs hn
      have := hs.dependent p (hh' p (by
        exact List.mem_cons_of_mem _ (List.mem_cons_of_mem _ hp))) (by simp only [List.mem_cons, List.not_mem_nil, or_false] at hp; rcases hp with rfl | rfl | rfl | rfl | rfl <;> rfl)
      unfold Updater.addDependent at this
      have hv : D.withDummy.state.fixed p.var = false := by
        refine hf' _ ?_
        simp only [List.mem_cons, List.not_mem_nil, or_false] at hp
        rcases hp with rfl | rfl | rfl | rfl | rfl <;> decide
      simp only [hv, Bool.false_eq_true, if_false, if_neg hn] at this
      exact this
    have h2 := step (testInt 5) (by decide) (step (testInt 4) (by decide) (step (testInt 3) (by decide) (step (testInt 2) (by decide)
      (step (testInt 1) (by decide) h1 (by simp [Updater.create])) (by simp [Updater.create, testInt]))
      (by simp [Updater.create, testInt])) (by simp [Updater.create, testInt])) (by simp [Updater.create, testInt])
    have h3 := h2.change (Function.update (Function.update D.ext 2 (.int (-5))) 3 (.int 4)) D.world ?_
    · exact h3
    · intro p hp hr hn
      have hrd := Lemma.Session.read_of testProgram_names (readText_parses hD).2.choose_spec
      have h2 : p.target ≠ 2 := fun h => hn (by rw [hrd.inj p xi hp (hh' _ (by decide)) h]; simp [xi, yi, Updater.create])
      have h3 : p.target ≠ 3 := fun h => hn (by rw [hrd.inj p yi hp (hh' _ (by decide)) h]; simp [xi, yi, Updater.create])
      have h4 := (hrd.lt p hp).ne
      simp [h2, h3, h4]
  · have := (Lemma.Session.read_of testProgram_names (readText_parses hD).2.choose_spec).lt xi (hh' _ (by decide))
    simp only [xi] at this ⊢
    simp [Function.update, this.ne]
  · have := (Lemma.Session.read_of testProgram_names (readText_parses hD).2.choose_spec).lt yi (hh' _ (by decide))
    simp only [yi] at this ⊢
    simp [Function.update, this.ne]
  · simp only [List.cons.injEq] at hr
    exact hr.2.2.2.2.1

/-- from `parser_input_basic`: testsuite/test_parser.cpp 44-92 -/
def basicText : List Byte := bytes "string hello = \"Hello\";
int n = 7^3;
int a = n/6;
string assembled = a + \".\" + n;
Collection globals {
  int a = n;
  Constants maths {
    float pi = 3.14159;
  }
}
int other = globals:a;
nsteps = n;
output = hello;
dz = 1.0;
"

/-- Like the test `parser_values`, testsuite/test_parser.cpp 326-333: `nsteps` is 7*7*7, `output` is `Hello` and `dz` is 1; and the
variables of the file. -/
example : ∃ D, Parses testProgram.host testProgram.begin basicText (.ok D) ∧
    (D.heap.drop 16).map Variable.value = [.float 1, .int 343, .str "Hello", .str "Hello", .int 343, .int 57, .str "57.343", .int 343,
      .float (314159 / 100000), .int 343, .int 0] := by
  have h : (readText testProgram 4000 basicText).any (fun D => decide ((D.heap.drop 16).map Variable.value =
    [.float 1, .int 343, .str "Hello", .str "Hello", .int 343, .int 57, .str "57.343", .int 343,
      .float (314159 / 100000), .int 343, .int 0])) = true := by decide +kernel
  rcases hD : readText testProgram 4000 basicText with _ | D
  · rw [hD] at h; cases h
  · rw [hD] at h
    exact ⟨D, (readText_parses hD).1, of_decide_eq_true h⟩

/-! ## an exception while the file is read -/

/-- A program with a read-only string `s`, which is `abc`, and an integer `n`. -/
def stringProgram : Program ℚ Unit :=
  { testProgram with classes := [("app", ⟨[], some [⟨"s", .str "abc", none, true, false, by simp⟩, plainPar "n" (.int 7)]⟩)] }

/-- `n = s;` -/
def stringText : List Byte := bytes "n = s;\n"

/-- the parameter `n` -/
def nPar : Param := ⟨1, 1, false⟩

/-- what the program sees of `update` with the dependent parameter `n`, which is not a constant -/
def stringRun (D : DeckState ℚ Unit) : Option (List (Val ℚ)) :=
  (DepMap.create D.withDummy.state D.withDummy.expr D.heap.length
    (DeckState.blockTree D.withDummy.store D.withDummy.store.blocks.length 0)).bind fun M =>
  (((Updater.create D.heap.length).addDependent D.withDummy.state nPar).1.update testOps D.withDummy.expr M 1000
    ((Updater.create D.heap.length).addDependent { D.withDummy.state with ext := Function.update D.ext D.nextExt (.int 0) }
      nPar).2).map fun r => [r.2.ext 0, r.2.ext 1]

theorem stringText_run : (readText stringProgram 1000 stringText).any (fun D => handles D nPar && !D.withDummy.state.fixed 1 &&
    given D 0 (.ext .str 0) && given D 1 (.cast .int (.unary .id (.ref .str 0))) &&
    decide (stringRun D = some [.str "abc", .int 0])) = true := by decide +kernel

/-- C141 is violated if a formula cannot be evaluated while the file is read: in `n = s;` the string `s` is `abc`, which is not a number.
The exception is caught, and the file is accepted. After `update`, which succeeds, the program's integer is 0, although the formula has
no value. -/
theorem C141_violated_swallowed : ∃ D, Parses stringProgram.host stringProgram.begin stringText (.ok D) ∧ ∃ M U σ U' σ',
    MapOf D M ∧ Session stringProgram.host.ops D M U σ ∧ U.update stringProgram.host.ops D.withDummy.expr M 1000 σ = some (U', σ') ∧
    nPar ∈ U.params ∧ σ'.ext nPar.target = .int 0 ∧ ¬ ∃ a, ValueOf stringProgram.host.ops D σ' nPar.var a := by
  have h := stringText_run
  rcases hD : readText stringProgram 1000 stringText with _ | D
  · rw [hD] at h; cases h
  rw [hD] at h
  simp only [Option.any_some, Bool.and_eq_true, decide_eq_true_eq, Bool.not_eq_true'] at h
  obtain ⟨⟨⟨⟨hh, hf⟩, g0⟩, g1⟩, hr⟩ := h
  unfold stringRun at hr
  rw [Option.bind_eq_some_iff] at hr
  obtain ⟨M, hM, hr⟩ := hr
  rw [Option.map_eq_some_iff] at hr
  obtain ⟨⟨U', σ'⟩, hu, hr⟩ := hr
  simp only [List.cons.injEq] at hr
  refine ⟨D, (readText_parses hD).1, M, _, _, U', σ', hM, ?_, hu, ?_, hr.2.1, ?_⟩
  · have h0 : Session testOps D M (Updater.create D.heap.length)
        { D.withDummy.state with ext := Function.update D.ext D.nextExt (.int 0) } := .start D.ext fun _ _ _ => rfl
    exact h0.dependent nPar (handles_handle hh) rfl
  · unfold Updater.addDependent
    have : D.withDummy.state.fixed nPar.var = false := hf
    simp [this, Updater.create]
  · rintro ⟨a, ha⟩
    obtain ⟨f, hm, he⟩ := valueOf_given g1 ha
    obtain ⟨f', -, he'⟩ := valueOf_given g0 (hm 0 (by decide))
    have h0 : f 0 = .str "abc" := by simpa [Expr.eval, hr.1, Val.ty] using he'.symm
    have hd : testOps.readInt "abc" = none := by decide +kernel
    have : stringProgram.host.ops = testOps := rfl
    simp [Expr.eval, h0, Val.ty, UnOp.eval, convert, this, hd] at he

end Schnek.Props
