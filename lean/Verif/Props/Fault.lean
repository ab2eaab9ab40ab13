import Verif.Lemma.Fault
import Verif.Lemma.Files
import Verif.Props.Deck

/-!
# Expressions that have no value (C140)
-/

namespace Schnek.Props

open Schnek.Deck Schnek.Spec Schnek.Lemma.Fault

variable {F W : Type}

/-- Evaluating with exceptions in view gives the values of `eval` (C28 - C33). -/
theorem C140_refines (O : FloatOps F) (σ : State F W) (e : Expr F W) (v : Val F) : e.tryEval O σ = .ok v ↔ e.eval O σ = some v :=
  ok_iff (eval_toOption O σ e) v

/-- C140. If evaluating an expression does not give a value, there is a reason in the expression for what happens: `TypeCastException` if
a text that is to be converted into a number is not one, an exception of a function, `boost::bad_get` if a variable holds another type than
it is used with, undefined behaviour if an operation on integers has no result or a number is converted that is out of the range of
`int`. -/
theorem C140_reason (O : FloatOps F) (σ : State F W) (e : Expr F W) (he : SameTypes e) (f : Fault) (h : e.tryEval O σ = .error f) :
    Reason O σ e f :=
  reason O σ e he f h

/-- C140. Conversely an expression with a reason to fail has no value: none is passed over. -/
theorem C140_strict (O : FloatOps F) (σ : State F W) (e : Expr F W) (f : Fault) (h : Reason O σ e f) :
    ∃ f', e.tryEval O σ = .error f' :=
  error_of_none (eval_toOption O σ e) (reason_none O σ e f h)

/-- C140. The expressions of a setup file are of this kind, and a constant in a file fails for one of three reasons: a conversion, a
function or an undefined operation. It never fails because a variable does not hold what it should. -/
theorem C140_constants (P : Program F W) (deck : List (Stmt F)) (g : Grammar.Expression F) (e : Expr F W)
    (hg : g.build ((P.after deck).env P.host) = some e) :
    SameTypes e ∧ ∀ f, e.isConstant (P.after deck).state = true → e.tryEval P.host.ops (P.after deck).state = .error f →
      f ≠ .badGet ∧ Reason P.host.ops (P.after deck).state e f := by
  have hr := refs_env P.host ⟨[], (List.append_nil _).symm⟩ g e hg
  exact ⟨hr.2.2, fun f hc h => constant_reason (Lemma.Deck.dinv_after P deck).typed hr hc h⟩

/-- C140. An expression in which all is of type `double` and no function is called always has a value. -/
theorem C140_doubles (O : FloatOps F) (σ : State F W) (e : Expr F W) (he : SameTypes e)
    (hf : ∀ s ∈ parts e, s.ty = .float ∧ ∀ f args, s ≠ .call f args) (hσ : ∀ v, .ref .float v ∈ parts e → (σ.value v).ty = .float)
    (hx : ∀ x, .ext .float x ∈ parts e → (σ.ext x).ty = .float) : ∃ v, e.tryEval O σ = .ok v := by
  rcases h : e.tryEval O σ with f | v
  case ok => exact ⟨v, rfl⟩
  exfalso
  have hin : ∀ s u, s ∈ parts e → u ∈ parts s → u.ty = .float := fun s u hs hu => (hf u (parts_sub e s hs hu)).1
  have hr := reason O σ e he f h
  cases f with
  | typeCast =>
    obtain ⟨t, s, x, h1, h2, -⟩ := hr
    have h3 := hin _ s h1 (by rw [parts]; exact List.mem_cons_of_mem _ (self_parts s))
    have h4 := Lemma.Deck.eval_ty O σ s _ h2
    rw [h3] at h4
    cases h4
  | function =>
    obtain ⟨g, args, vs, h1, -⟩ := hr
    exact (hf _ h1).2 g args rfl
  | undefined =>
    rcases hr with ⟨s, i, h1, h2, -⟩ | ⟨s, x, h1, -⟩ | ⟨op, b, p, s, c, x, y, h1, -, h2, -⟩
    · have h3 := hin _ s h1 (by rw [parts]; exact List.mem_cons_of_mem _ (self_parts s))
      have h4 := Lemma.Deck.eval_ty O σ s _ h2
      rw [h3] at h4
      cases h4
    · have h3 := (hf _ h1).1
      cases h3
    · have h3 : s.ty = .float := by
        refine hin _ s h1 ?_
        rw [parts]
        refine List.mem_cons_of_mem _ ?_
        have : ∀ b : Terms F W, s ∈ partsTerms (b.append (.cons p s c)) := by
          intro b
          rw [partsTerms_append, partsTerms]
          exact List.mem_append_right _ (List.mem_append_left _ (self_parts s))
        exact this b
      have h4 := Lemma.Deck.eval_ty O σ s _ h2
      rw [h3] at h4
      cases h4
  | badGet =>
    obtain ⟨s, h1, ⟨t, v, rfl, h2⟩ | ⟨t, v, rfl, h2⟩⟩ := hr
    · have h3 : t = .float := (hf _ h1).1
      subst h3
      exact h2 (hσ v h1)
    · have h3 : t = .float := (hf _ h1).1
      subst h3
      exact h2 (hx v h1)

/-! ## examples -/

/-- `int a = 0;` and then the constant `1/a` -/
def divisionDeck : List (Stmt ℚ) := [.decl .int [("a", some (.one (.one (.one (.one (.lit (.int 0)))))))]]

/-- `1/a` -/
def division : Grammar.Expression ℚ := .one (.one (.div (.one (.lit (.int 1))) (.one (.one (.ident "a")))))

/-- The hypotheses of `C140_constants` and `C140_reason` are met, and the division by zero is undefined. -/
example : ∃ e, division.build ((exampleProgram.after divisionDeck).env exampleProgram.host) = some e ∧
    e.isConstant (exampleProgram.after divisionDeck).state = true ∧ SameTypes e ∧
    e.tryEval exampleProgram.host.ops (exampleProgram.after divisionDeck).state = .error .undefined := by
  obtain ⟨e, he⟩ : ∃ e, division.build ((exampleProgram.after divisionDeck).env exampleProgram.host) = some e :=
    Option.isSome_iff_exists.1 (by decide +kernel)
  refine ⟨e, he, ?_, (C140_constants exampleProgram divisionDeck division e he).1, ?_⟩
  · have : (division.build ((exampleProgram.after divisionDeck).env exampleProgram.host)).map
        (fun e => e.isConstant (exampleProgram.after divisionDeck).state) = some true := by decide +kernel
    rw [he] at this
    exact Option.some.inj this
  · have : (division.build ((exampleProgram.after divisionDeck).env exampleProgram.host)).map
        (fun e => match e.tryEval exampleProgram.host.ops (exampleProgram.after divisionDeck).state with
          | .error f => some f
          | .ok _ => none) = some (some .undefined) := by decide +kernel
    rw [he, Option.map_some, Option.some.injEq] at this
    split at this
    · rename_i h
      rw [h, Option.some.inj this]
    · cases this

/-- `-(2.5 * x)`, where `x` is of type `double` -/
example : let e : Expr ℚ Unit := .unary .neg (.binary .mul (.cons true (.value (.float (5 / 2))) (.cons true (.ref .float 0) .nil)))
    SameTypes e ∧ (∀ s ∈ parts e, s.ty = .float ∧ ∀ f args, s ≠ .call f args) := by
  refine ⟨?_, ?_⟩
  · intro op es h
    simp only [parts, partsTerms, List.mem_cons, List.mem_append] at h
    rcases h with h | h | h | h | h <;> simp at h
    obtain ⟨rfl, rfl⟩ := h
    exact ⟨.float, by simp [operands], by simp [operands, Expr.ty, Val.ty]⟩
  · intro s h
    simp only [parts, partsTerms, List.mem_cons, List.mem_append, List.cons_append, List.nil_append, List.append_nil, List.not_mem_nil,
      or_false] at h
    rcases h with rfl | rfl | rfl | rfl <;> exact ⟨rfl, by intro f args h; cases h⟩

end Schnek.Props
