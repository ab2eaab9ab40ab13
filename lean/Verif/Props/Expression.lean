import Verif.Lemma.Known
import Mathlib.Data.Rat.Defs
import Mathlib.Algebra.Order.Floor.Defs
import Mathlib.Data.Rat.Floor

/-!
# Expressions in a setup file (C29 - C33)
-/

namespace Schnek.Props

open Schnek.Deck Schnek.Deck.Grammar Schnek.Spec Schnek.Lemma.Deck

variable {F W : Type}

/-- C29, the language: the tokens of every expression the parser's grammar derives have exactly one reading as an arithmetic
expression, and every arithmetic expression is derived. -/
theorem C29_grammar_is_arithmetic :
    (∀ d : Grammar.Expression F, ∃! a, IsExpr d.tokens a) ∧
    (∀ (s : List (Token F)) (a : Ast F), IsExpr s a → ∃ d : Grammar.Expression F, d.tokens = s) :=
  ⟨fun d => ⟨Expression.read d, expression_tokens d, fun _ h => isExpr_unique h (expression_tokens d)⟩,
    fun _ _ h => derivable h⟩

/-- C29: an expression in which everything has one type has the value of its usual reading: `^` before `*` and `/` before `+` and
`-`, equal precedences from left to right, brackets as written. -/
theorem C29_value_is_arithmetic (O : FloatOps F) (env : Env F W) (σ : State F W) (hσ : Env.Typed env σ)
    (d : Grammar.Expression F) (a : Ast F) (ha : IsExpr d.tokens a) (t : Ty) (ht : a.AllOf env t)
    (e : Expr F W) (he : d.build env = some e) : e.eval O σ = a.eval O env σ := by
  have := isExpr_unique ha (expression_tokens d)
  subst this
  exact (expression_agrees O env d e he (allOf_ty env t _ ht).2).eval σ hσ

/-- C29: an expression is accepted exactly if its variables and functions are defined and functions have the right number of
arguments. -/
theorem C29_accepted_iff (env : Env F W) (d : Grammar.Expression F) (a : Ast F) (ha : IsExpr d.tokens a) :
    (∃ e, d.build env = some e) ↔ a.Known env := by
  have := isExpr_unique ha (expression_tokens d)
  subst this
  rw [← expression_known env d, Option.isSome_iff_exists]

/-- C30, for expressions in which every chain `a + b - c ...` or `a * b / c ...` of three or more operands has one type from its
third operand on: the value is that of the usual reading, each operator converting its operands to the wider of their types.
Missing: chains that mix types, for which it is false (below). -/
theorem C30_mixed_types_partial (O : FloatOps F) (env : Env F W) (σ : State F W) (hσ : Env.Typed env σ)
    (d : Grammar.Expression F) (a : Ast F) (ha : IsExpr d.tokens a) (hu : a.Uniform env)
    (e : Expr F W) (he : d.build env = some e) : e.eval O σ = a.eval O env σ := by
  have := isExpr_unique ha (expression_tokens d)
  subst this
  exact (expression_agrees O env d e he hu).eval σ hσ

/-- exact arithmetic in place of `double` -/
def ratOps : FloatOps ℚ where
  neg := fun x => -x
  add := (· + ·)
  sub := (· - ·)
  mul := (· * ·)
  div := (· / ·)
  pow := fun x _ => x
  powInt := fun _ _ => none
  ofInt := fun i => i
  toInt := fun x => some (if 0 ≤ x then ⌊x⌋ else ⌈x⌉)
  showInt := fun i => toString i
  showFloat := fun _ => ""
  readInt := fun _ => none
  readFloat := fun _ => none

/-- nothing defined -/
def emptyEnv : Env ℚ Unit := ⟨fun _ => none, fun _ => none⟩

/-- nothing there -/
def emptyState : State ℚ Unit := ⟨fun _ => .int 0, fun _ => true, fun _ => 0, fun _ => .int 0, ()⟩

/-- a factor that is a number -/
def num (v : Val ℚ) : Grammar.Power ℚ := .one (.lit v)

/-- `10.0 - 3 - 2` -/
def exampleSub : Grammar.Expression ℚ :=
  .sub (.one (.one (num (.float 10)))) (.sub (.one (num (.int 3))) (.one (.one (num (.int 2)))))

/-- `3.0 * 1 / 2` -/
def exampleDiv : Grammar.Expression ℚ :=
  .one (.one (.mul (num (.float 3)) (.div (num (.int 1)) (.one (num (.int 2))))))

/-- C30 is false for mixed chains: `10.0 - 3 - 2` is 9, not 5. -/
theorem C30_violated_subtraction :
    ∃ e a, exampleSub.build emptyEnv = some e ∧ IsExpr exampleSub.tokens a ∧
      a.eval ratOps emptyEnv emptyState = some (.float 5) ∧ e.eval ratOps emptyState = some (.float 9) := by
  refine ⟨_, _, rfl, expression_tokens exampleSub, ?_, ?_⟩
  · simp [exampleSub, num, Expression.read, Unsigned.readRest, SignedTerm.read, Term.read, Power.read, Atomic.read, Ast.eval,
      applyOp, toType_eq, operate_eq, convert, Val.ty, wider, ratOps, BinOp.eval]
    norm_num
  · simp [exampleSub, num, assignBinary, assignUnary, promote, mkBinary, Expr.ty, Terms.ty, Val.ty, Expr.asTerms, BinOp.inverted,
      BinOp.isPositive, Terms.flipFirst, Terms.append, Expr.eval, Terms.evalFirst, Terms.evalRest, UnOp.eval, convert,
      ratOps, BinOp.eval, BinOp.negative, BinOp.positive, checkInt]
    norm_num

/-- C30 is false for mixed chains: `3.0 * 1 / 2` is 0, not 1.5. -/
theorem C30_violated_division :
    ∃ e a, exampleDiv.build emptyEnv = some e ∧ IsExpr exampleDiv.tokens a ∧
      a.eval ratOps emptyEnv emptyState = some (.float (3 / 2)) ∧ e.eval ratOps emptyState = some (.float 0) := by
  refine ⟨_, _, rfl, expression_tokens exampleDiv, ?_, ?_⟩
  · simp [exampleDiv, num, Expression.read, SignedTerm.read, Term.read, Term.readRest, Power.read, Atomic.read, Ast.eval,
      applyOp, toType_eq, operate_eq, convert, Val.ty, wider, ratOps, BinOp.eval]
  · simp [exampleDiv, num, assignBinary, assignUnary, promote, mkBinary, Expr.ty, Terms.ty, Val.ty, Expr.asTerms, BinOp.inverted,
      BinOp.isPositive, Terms.flipFirst, Terms.append, Expr.eval, Terms.evalFirst, Terms.evalRest, UnOp.eval, convert,
      ratOps, BinOp.eval, BinOp.negative, BinOp.positive, checkInt]

/-- `7 - 2 - 1 * 2` satisfies the hypotheses of C29 and has the value 3. -/
def exampleInt : Grammar.Expression ℚ :=
  .sub (.one (.one (num (.int 7)))) (.sub (.one (num (.int 2))) (.one (.mul (num (.int 1)) (.one (num (.int 2))))))

example : ∃ a e, IsExpr exampleInt.tokens a ∧ a.AllOf emptyEnv .int ∧ exampleInt.build emptyEnv = some e ∧
    e.eval ratOps emptyState = some (.int 3) ∧ Env.Typed emptyEnv emptyState := by
  refine ⟨_, _, expression_tokens exampleInt, ?_, rfl, ?_, ?_⟩
  · simp [exampleInt, num, Expression.read, Unsigned.readRest, SignedTerm.read, Term.read, Term.readRest, Power.read, Atomic.read,
      Ast.AllOf, Val.ty]
  · simp [num, assignBinary, assignUnary, promote, mkBinary, Expr.ty, Terms.ty, Val.ty, Expr.asTerms, BinOp.inverted,
      BinOp.isPositive, Terms.flipFirst, Terms.append, Expr.eval, Terms.evalFirst, Terms.evalRest, UnOp.eval,
      BinOp.eval, BinOp.negative, BinOp.positive, checkInt]
  · intro n v t h
    simp [emptyEnv] at h

/-- `1.5 + 2` satisfies the hypotheses of C30. -/
example : ∃ a, IsExpr (Grammar.Expression.add (.one (.one (num (.float (3 / 2))))) (.one (.one (num (.int 2))))).tokens a ∧
    a.Uniform emptyEnv ∧ a.eval ratOps emptyEnv emptyState = some (.float (7 / 2)) := by
  refine ⟨_, expression_tokens _, ?_, ?_⟩
  · simp [num, Expression.read, Unsigned.readRest, SignedTerm.read, Term.read, Power.read, Atomic.read, Ast.Uniform, Ast.isChain]
  · simp [num, Expression.read, Unsigned.readRest, SignedTerm.read, Term.read, Power.read, Atomic.read, Ast.eval,
      applyOp, toType_eq, operate_eq, convert, Val.ty, wider, ratOps, BinOp.eval]
    norm_num

/-- C31: an expression that says it is constant keeps its value whatever happens to external values, to non-constant variables and
to the world, as long as the constant variables are not assigned to. -/
theorem C31_constant_expressions (O : FloatOps F) (σ σ' : State F W) (e : Expr F W) (hc : e.isConstant σ = true)
    (h : ∀ v, σ.fixed v = true → σ'.value v = σ.value v) : e.eval O σ' = e.eval O σ :=
  expr_constant O σ σ' h e hc

example : (Expr.unary .neg (.ref .int 3) : Expr ℚ Unit).isConstant emptyState = true := rfl

/-- C32: the value of an expression changes only if one of the variables whose ids are among its dependencies changes, or an
external value it refers to changes, or, if it depends on the id -1, the world changes. -/
theorem C32_dependencies_complete (O : FloatOps F) (σ σ' : State F W) (e : Expr F W)
    (hv : ∀ v, σ.id v ∈ e.deps σ → σ'.value v = σ.value v) (hext : ∀ x ∈ externals e, σ'.ext x = σ.ext x)
    (hw : -1 ∈ e.deps σ → σ'.world = σ.world) : e.eval O σ' = e.eval O σ :=
  expr_deps O σ σ' e hv hw hext

/-- C32: constant expressions depend on constant variables only. -/
theorem C32_constant_dependencies (σ : State F W) (hinj : Function.Injective σ.id) (hid : ∀ v, σ.id v ≠ -1)
    (e : Expr F W) (hc : e.isConstant σ = true) : (∀ v, σ.id v ∈ e.deps σ → σ.fixed v = true) ∧ -1 ∉ e.deps σ := by
  refine Expr.rec (motive_1 := fun e => e.isConstant σ = true → (∀ v, σ.id v ∈ e.deps σ → σ.fixed v = true) ∧ -1 ∉ e.deps σ)
    (motive_2 := fun e => e.isConstant σ = true → (∀ v, σ.id v ∈ e.deps σ → σ.fixed v = true) ∧ -1 ∉ e.deps σ)
    (motive_3 := fun e => e.isConstant σ = true → (∀ v, σ.id v ∈ e.deps σ → σ.fixed v = true) ∧ -1 ∉ e.deps σ)
    ?_ ?_ ?_ ?_ ?_ ?_ ?_ ?_ ?_ ?_ ?_ e hc
  · intro v _; simp [Expr.deps]
  · intro t v h
    simp only [Expr.isConstant] at h
    refine ⟨fun w hw => ?_, ?_⟩
    · simp only [Expr.deps, List.mem_singleton] at hw
      rw [hinj hw, h]
    · simp only [Expr.deps, List.mem_singleton]
      exact fun h => hid v h.symm
  · intro t x h; simp [Expr.isConstant] at h
  · intro op e ih h; exact ih h
  · intro op es ih h; exact ih h
  · intro t e ih h; exact ih h
  · intro f as ih h
    simp only [Expr.isConstant, Bool.and_eq_true, Bool.not_eq_true'] at h
    simpa [Expr.deps, h.1] using ih h.2
  · intro _; simp [Terms.deps]
  · intro p e es ih ih' h
    simp only [Terms.isConstant, Bool.and_eq_true] at h
    simp only [Terms.deps, List.mem_append, not_or]
    exact ⟨fun v hv => hv.elim ((ih h.1).1 v) ((ih' h.2).1 v), (ih h.1).2, (ih' h.2).2⟩
  · intro _; simp [Args.deps]
  · intro e es ih ih' h
    simp only [Args.isConstant, Bool.and_eq_true] at h
    simp only [Args.deps, List.mem_append, not_or]
    exact ⟨fun v hv => hv.elim ((ih h.1).1 v) ((ih' h.2).1 v), (ih h.1).2, (ih' h.2).2⟩

/-- a state in which ids are as C32 wants them, and an expression that depends on a variable -/
example : ∃ (σ : State ℚ Unit) (e : Expr ℚ Unit), Function.Injective σ.id ∧ (∀ v, σ.id v ≠ -1) ∧ σ.id 7 ∈ e.deps σ ∧
    e.isConstant σ = true :=
  ⟨⟨fun _ => .int 0, fun _ => true, fun v => v, fun _ => .int 0, ()⟩, .unary .id (.ref .int 7),
    fun _ _ h => by simpa using h, fun v => by simp, by simp [Expr.deps], rfl⟩

/-- C33: a call evaluates the arguments in the order written, converts each to the type of its parameter and passes them to the
registered function. -/
theorem C33_call_value (O : FloatOps F) (env : Env F W) (σ : State F W) (n : String) (f : Func F W)
    (hf : env.func n = some f) (args : ExprList F) (es : List (Expr F W))
    (hes : (argumentsOf args).mapM (fun a => a.build env) = some es)
    (e : Expr F W) (he : (Atomic.call n args).build env = some e) :
    e.eval O σ = (es.mapM (fun a : Expr F W => a.eval O σ)).bind fun vs => (convertArgs O f.params vs).bind (f.call σ.world) := by
  rw [Atomic.build, build_arguments env args es hes, Option.bind_some, assignFunctionArgs_eq, List.reverse_reverse,
    List.append_nil, getExpression, hf, Option.bind_some] at he
  simp only [Option.map_eq_some_iff] at he
  obtain ⟨as, has, rfl⟩ := he
  rw [Expr.eval, makeList_eval' O σ f.params es as has, Option.bind_assoc]

/-- C33: a call of a registered function is accepted exactly if the number of arguments is the number of parameters; a call of an
unregistered function never. -/
theorem C33_call_accepted (env : Env F W) (n : String) (args : ExprList F) (es : List (Expr F W))
    (hes : (argumentsOf args).mapM (fun a => a.build env) = some es) :
    (∃ e, (Atomic.call n args).build env = some e) ↔
      ∃ f, env.func n = some f ∧ f.params.length = (argumentsOf args).length := by
  rw [← Option.isSome_iff_exists, Atomic.build, build_arguments env args es hes, Option.bind_some, getExpression_isSome,
    assignFunctionArgs_eq]
  have : ∀ (l : List (Grammar.Expression F)) (es : List (Expr F W)), l.mapM (fun a => a.build env) = some es → es.length = l.length := by
    intro l
    induction l with
    | nil => intro es h; simp at h; simp [← h]
    | cons a l ih =>
        intro es h
        simp only [List.mapM_cons, Option.bind_eq_bind, Option.bind_eq_some_iff, Option.pure_def, Option.some.injEq] at h
        obtain ⟨_, _, l', hl', rfl⟩ := h
        simp [ih l' hl']
  simp [this _ _ hes]

/-- what the arguments are: the tokens of a call are the name, a bracket, the arguments separated by commas, a bracket -/
theorem C33_arguments_as_written (n : String) (args : ExprList F) :
    (Atomic.call n args).tokens =
      .ident n :: .lbracket :: ((List.intersperse [.comma] ((argumentsOf args).map Expression.tokens)).flatten ++ [.rbracket]) := by
  have key : ∀ args : ExprList F, argumentsOf args ≠ [] ∧ args.tokens =
      (List.intersperse [.comma] ((argumentsOf args).map Expression.tokens)).flatten := by
    have snoc : ∀ (l : List (List (Token F))) (x : List (Token F)), l ≠ [] →
        (List.intersperse [Token.comma] (l ++ [x])).flatten = (List.intersperse [Token.comma] l).flatten ++ .comma :: x := by
      intro l x
      induction l with
      | nil => intro h; exact (h rfl).elim
      | cons a l ih =>
          intro _
          cases l with
          | nil => simp [List.intersperse]
          | cons b l => simpa [List.intersperse] using ih (by simp)
    intro args
    let rec go : (args : ExprList F) → argumentsOf args ≠ [] ∧ args.tokens =
      (List.intersperse [.comma] ((argumentsOf args).map Expression.tokens)).flatten
      | .one a => by simp [argumentsOf, ExprList.tokens]
      | .snoc a b => by
          obtain ⟨h1, h2⟩ := go a
          refine ⟨by simp [argumentsOf], ?_⟩
          rw [argumentsOf, List.map_append, List.map_singleton, snoc _ _ (by simpa using h1), ExprList.tokens, h2]
    exact go args
  rw [Atomic.tokens, (key args).2]

/-- a function of two parameters -/
def minus2 : Func ℚ Unit where
  params := [.float, .int]
  result := .float
  updateAlways := false
  call := fun _ args => match args with
    | [.float x, .int i] => some (.float (x - i))
    | _ => none
  pure := fun _ _ _ _ => rfl
  typed := by
    intro w args v h
    split at h
    · simp only [Option.some.injEq] at h
      rw [← h]; rfl
    · simp at h

/-- `f(1, 2)` is accepted and is `f` of 1.0 and 2 -/
example :
    let env : Env ℚ Unit := ⟨fun _ => none, fun n => if n = "f" then some minus2 else none⟩
    let arg (i : ℤ) : Grammar.Expression ℚ := .one (.one (.one (num (.int i))))
    let args : ExprList ℚ := .snoc (.one (arg 1)) (arg 2)
    ∃ es e, (argumentsOf args).mapM (fun a => a.build env) = some es ∧ (Atomic.call "f" args).build env = some e ∧
      e.eval ratOps emptyState = some (.float (-1)) := by
  refine ⟨_, _, rfl, rfl, ?_⟩
  simp [minus2, Expr.eval, Args.eval, convertArg, Expr.ty, Val.ty, assignUnary, UnOp.eval, convert, ratOps]
  norm_num

end Schnek.Props
