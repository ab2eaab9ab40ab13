import Verif.Lemma.AcceptedStatements
import Verif.Props.Deck

/-!
# Which declarations and assignments are accepted (C157)
-/

namespace Schnek.Props

open Schnek.Deck Schnek.Deck.Grammar Schnek.Spec Schnek.Lemma.Deck Relation DeckState

variable {F W : Type}

/-- C157, for declarations whose expressions have the declared type (the full property allows conversion; it is false, see below). A declaration `type name = expression, …;` anywhere in a file is accepted exactly if every name has an expression that means something
there, is of the declared type and, if it is constant, can be evaluated, and if the names are different and none of them is the name of a
variable of the current block. -/
theorem C157_declaration_partial (P : Program F W) (deck : List (Stmt F)) (t : Ty) (ds : List (String × Option (Grammar.Expression F))) :
    ((P.after deck).step P.host (.decl t ds)).1 = true ↔
      (∀ d ∈ ds, ∃ g e, d.2 = some g ∧ g.build ((P.after deck).env P.host) = some e ∧ e.ty = t ∧
        (e.isConstant (P.after deck).state = true → e.eval P.host.ops (P.after deck).state ≠ none)) ∧
      (ds.map Prod.fst).Nodup ∧ ∀ d ∈ ds, ∀ v, ¬ Declares (P.after deck).store (P.after deck).store.cursor d.1 v := by
  have hD := dinv_after P deck
  generalize P.after deck = D at hD ⊢
  show (D.declare P.host t ds).1 = true ↔ _
  unfold declare
  rcases hl : buildAll (D.env P.host) ds with _ | l
  · obtain ⟨n, g, hm, hg⟩ := buildAll_none ds hl
    simp only [Bool.false_eq_true, false_iff]
    rintro ⟨h, -⟩
    obtain ⟨g', e, h1, h2, -⟩ := h _ hm
    cases h1
    rw [hg] at h2
    cases h2
  · obtain ⟨hb, -⟩ := buildAll_spec ds l hl
    have hF := buildAll_list ds l hl
    have hnames : l.map Prod.fst = ds.map Prod.fst := by
      clear hl hb
      induction hF with
      | nil => rfl
      | cons h _ ih => rw [List.map_cons, List.map_cons, h.1, ih]
    show (chain (storeOne P.host t) l.reverse D).1 = true ↔ _
    rw [chain_accepts P.host t D l.reverse (fun n e h => hb n e (List.mem_reverse.mp h)) D hD ⟨[], by simp⟩ rfl, List.map_reverse,
      List.nodup_reverse, hnames]
    simp only [List.mem_reverse]
    have hfst : (∀ d ∈ l, ∀ v, ¬ Declares D.store D.store.cursor d.1 v) ↔ ∀ d ∈ ds, ∀ v, ¬ Declares D.store D.store.cursor d.1 v := by
      have e1 : ∀ (α : Type) (k : List (String × α)), (∀ d ∈ k, ∀ v, ¬ Declares D.store D.store.cursor d.1 v) ↔
          ∀ n ∈ k.map Prod.fst, ∀ v, ¬ Declares D.store D.store.cursor n v := by
        intro α k
        simp
      rw [e1, e1, hnames]
    have hsnd : (∀ d ∈ l, ∃ e, d.2 = some e ∧ e.ty = t ∧ (e.isConstant D.state = true → e.eval P.host.ops D.state ≠ none)) ↔
        ∀ d ∈ ds, ∃ g e, d.2 = some g ∧ g.build (D.env P.host) = some e ∧ e.ty = t ∧
          (e.isConstant D.state = true → e.eval P.host.ops D.state ≠ none) := by
      clear hl hb hnames hfst
      induction hF with
      | nil => simp
      | @cons d d' ds l h _ ih =>
        simp only [List.forall_mem_cons]
        rw [ih]
        refine and_congr_left fun _ => ?_
        rcases h with ⟨-, ⟨h1, h2⟩ | ⟨g, e, h1, h2, h3⟩⟩
        · rw [h1, h2]; simp
        · rw [h1, h3]
          constructor
          · rintro ⟨e', he, b⟩
            cases he
            exact ⟨g, e, rfl, h2, b⟩
          · rintro ⟨g', e', hg, he, b⟩
            cases hg
            rw [h2] at he
            cases he
            exact ⟨e, rfl, b⟩
    rw [hfst, hsnd]

/-- C157. An assignment `name = expression;` anywhere in a file is accepted exactly if the expression means something there, the name means a
variable that can be written to, and the value, if it is constant, can be computed and converted to the type of the variable. -/
theorem C157_assignment (P : Program F W) (deck : List (Stmt F)) (n : String) (path : List String) (hw : Written ':' path n)
    (g : Grammar.Expression F) : ((P.after deck).step P.host (.assign n g)).1 = true ↔
      ∃ e v x, g.build ((P.after deck).env P.host) = some e ∧ Resolves (P.after deck).store (P.after deck).store.cursor path v ∧
        (P.after deck).heap[v]? = some x ∧ x.readOnly = false ∧
        (e.isConstant (P.after deck).state = true →
          ∃ val, e.eval P.host.ops (P.after deck).state = some val ∧ convert P.host.ops x.ty val ≠ none) := by
  constructor
  · intro h
    obtain ⟨v, e, x, x', h1, h2, h3, h4, -, -, -, -, h9, -⟩ := C41_accepted P deck n path hw g h
    refine ⟨e, v, x, h2, h1, h3, h4, fun hc => ?_⟩
    obtain ⟨-, val, h5, h6⟩ := h9 hc
    exact ⟨val, h5, by rw [h6]; simp⟩
  · rintro ⟨e, v, x, he, hv, hx, hro, hc⟩
    have hi := dinv_after P deck
    have hwd := (Schnek.Lemma.Vars.getVariable_iff hi.store _ hi.store.cursor path n hw)
    generalize P.after deck = D at *
    have hlhs : lhsType x = x.ty := by
      unfold lhsType
      obtain ⟨t1, t2⟩ := hi.typed v x hx
      by_cases hf : x.fixed = true
      · rw [if_pos hf, t1 hf]
      · rw [if_neg hf]
        obtain ⟨e', he', hty⟩ := t2 (by simpa using hf)
        rw [he']; exact hty
    have hpty : (promoteAssign x.ty e).ty = x.ty := by
      unfold promoteAssign
      split
      · assumption
      · rfl
    have hpc : (promoteAssign x.ty e).isConstant D.state = e.isConstant D.state := by
      unfold promoteAssign; split <;> rfl
    obtain ⟨y, hy⟩ : ∃ y, D.evaluate P.host (promoteAssign x.ty e) = some y := by
      unfold evaluate
      by_cases hcc : e.isConstant D.state = true
      · rw [hpc, if_pos hcc]
        obtain ⟨val, h1, h2⟩ := hc hcc
        unfold promoteAssign
        split
        · rw [h1]; exact ⟨_, rfl⟩
        · obtain ⟨val', h2⟩ := Option.ne_none_iff_exists'.mp h2
          simp only [Expr.eval, h1, Option.bind_some, h2]
          exact ⟨_, rfl⟩
      · rw [hpc, if_neg hcc]
        exact ⟨_, rfl⟩
    have hyt : y.ty = x.ty := (evaluate_typed hy).2.2.1.trans hpty
    show (D.update P.host n g).1 = true
    simp [update, he, (hwd v).mpr hv, hx, hlhs, hy, Variable.assign, hyt, hro]

/-- C157. `double x = i;` with a whole number `i` is refused, in every program and everywhere in a file. -/
theorem C157_violated_integer_for_float (P : Program F W) (deck : List (Stmt F)) (n : String) (i : ℤ) :
    ((P.after deck).step P.host (.decl .float [(n, some (.one (.one (.one (.one (.lit (.int i)))))))])).1 = false := by
  rw [← Bool.not_eq_true, C157_declaration_partial]
  rintro ⟨h, -⟩
  obtain ⟨g, e, hg, he, ht, -⟩ := h _ List.mem_cons_self
  cases hg
  simp only [Expression.build, SignedTerm.build, Term.build, Power.build, Atomic.build, Option.some.injEq] at he
  subst he
  cases ht

/-- A program with a parameter `x` of type `double`: `x = 3;` is accepted, and the value is converted; `double y = 3;` is refused, and
`double y = 3.0;` is accepted. -/
def floatProgram : Program ℚ Unit :=
  { exampleProgram with
    classes := [("Root", ⟨[], some [⟨"x", .float 0, some (.float 0), false, false, by simp [Val.ty]⟩]⟩)] }

example : floatProgram.Accepts [.assign "x" (lit 3)] ∧ ¬ floatProgram.Accepts [.decl .float [("y", some (lit 3))]] ∧
    floatProgram.Accepts [.decl .float [("y", some (.one (.one (.one (.one (.lit (.float 3)))))))]] := by
  refine ⟨?_, ?_, ?_⟩
  · show _ = true
    decide +kernel
  · show ¬ (_ = true)
    decide +kernel
  · show _ = true
    decide +kernel

/-- in `exampleProgram`, after `exampleDeck`: two new names are accepted, the same name twice and a name declared before are not; the name of
a block's variable can be declared again inside another block -/
example : ((exampleProgram.after exampleDeck).step exampleProgram.host (.decl .int [("u", some (ident "a")), ("v", some (plus "a" 1))])).1 = true ∧
    ((exampleProgram.after exampleDeck).step exampleProgram.host (.decl .int [("u", some (lit 1)), ("u", some (lit 2))])).1 = false ∧
    ((exampleProgram.after exampleDeck).step exampleProgram.host (.decl .int [("a", some (lit 1))])).1 = false ∧
    ((exampleProgram.after (exampleDeck ++ [.start "B" "d"])).step exampleProgram.host (.decl .int [("a", some (lit 1))])).1 = true := by
  decide +kernel

/-- in `exampleProgram`: `size` can be written to, `t` can not, and `nothing` is not the name of a variable -/
example : (exampleProgram.begin.step exampleProgram.host (.assign "size" (plus "t" 1))).1 = true ∧
    (exampleProgram.begin.step exampleProgram.host (.assign "t" (lit 1))).1 = false ∧
    (exampleProgram.begin.step exampleProgram.host (.assign "nothing" (lit 1))).1 = false := by
  decide +kernel

end Schnek.Props
