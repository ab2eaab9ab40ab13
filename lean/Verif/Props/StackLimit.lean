import Verif.Lemma.StackLimit

/-!
# C151: how long the parts of a statement may be

The statements are in Spec/StackLimit.lean, the grammar in Spec/DeckGrammar.lean.
-/

namespace Schnek.Props

open Schnek.Lemon Schnek.Spec Schnek.Lemma.Lemon Schnek.Lemma.StackLimit
open Scanner (Kind)

variable {V S : Type}

/-- C151. Let all other statements of a file have no more than 98 tokens, and let no action throw an exception. A sum is accepted if and only if it has no more than 49
operands in the first statement of the file, and no more than 48 in another statement. -/
theorem C151_sums (act : Actions V S) (hact : ∀ r vs s, (act r vs s).1 ≠ none) (v0 : V) (s : S) (before after : List (List (Kind × V)))
    (hb : ∀ t ∈ before ++ after, t.length ≤ 98 ∧ ∃ F : Forest V, F.Derives [.n .statement] t) (tokens : List (Kind × V)) (a : Fin 5)
    (l : List (Bool × Fin 5)) (ht : tokens.map Prod.fst = sumStatement a l) :
    (∃ s', Returns act stackDepth v0 (before.flatten ++ tokens ++ after.flatten) s (.done s')) ↔
      l.length + 1 ≤ if before = [] then 49 else 48 := by
  obtain ⟨h1, h2, h3, h4⟩ := exprF_ok a l
  obtain ⟨e1, e2⟩ := assignF_ok h1 h2 h3
  rw [accepted_iff hact v0 s before after hb tokens (F := assignF (exprF a l)) (by
    rw [ht]
    convert e1 using 2
    simp [sumStatement]), e2, h4]
  split <;> omega

/-- C151. The same holds for products. -/
theorem C151_products (act : Actions V S) (hact : ∀ r vs s, (act r vs s).1 ≠ none) (v0 : V) (s : S) (before after : List (List (Kind × V)))
    (hb : ∀ t ∈ before ++ after, t.length ≤ 98 ∧ ∃ F : Forest V, F.Derives [.n .statement] t) (tokens : List (Kind × V)) (a : Fin 5)
    (l : List (Bool × Fin 5)) (ht : tokens.map Prod.fst = productStatement a l) :
    (∃ s', Returns act stackDepth v0 (before.flatten ++ tokens ++ after.flatten) s (.done s')) ↔
      l.length + 1 ≤ if before = [] then 49 else 48 := by
  obtain ⟨h1, h2, h3, h4⟩ := prodF_ok a l
  have k1 : (Forest.node 19 (.node 25 (prodF a l) .nil) .nil).Valid := ⟨rfl, ⟨h2, h1, trivial⟩, trivial⟩
  obtain ⟨e1, e2⟩ := assignF_ok (kinds := operand a :: l.flatMap (fun x => [if x.1 then .times else .divide, operand x.2])) k1 rfl (by
    simp only [Forest.yield, h3, List.append_nil])
  rw [accepted_iff hact v0 s before after hb tokens (F := assignF (.node 19 (.node 25 (prodF a l) .nil) .nil)) (by
    rw [ht]
    convert e1 using 2
    simp [productStatement]), e2]
  simp only [Forest.height, h4]
  split <;> omega

/-- C151. No more than 95 parentheses can be nested in the first statement, and no more than 94 in another one. -/
theorem C151_parentheses (act : Actions V S) (hact : ∀ r vs s, (act r vs s).1 ≠ none) (v0 : V) (s : S) (before after : List (List (Kind × V)))
    (hb : ∀ t ∈ before ++ after, t.length ≤ 98 ∧ ∃ F : Forest V, F.Derives [.n .statement] t) (tokens : List (Kind × V)) (a : Fin 5) (d : ℕ)
    (ht : tokens.map Prod.fst = bracketStatement a d) :
    (∃ s', Returns act stackDepth v0 (before.flatten ++ tokens ++ after.flatten) s (.done s')) ↔ d ≤ if before = [] then 95 else 94 := by
  obtain ⟨h1, h2, h3, h4⟩ := brF_ok a d
  obtain ⟨k1, k2, k3, k4⟩ := atomF_ok h1 h2 h3
  obtain ⟨e1, e2⟩ := assignF_ok k1 k2 k3
  rw [accepted_iff hact v0 s before after hb tokens (F := assignF (atomF (brF a d))) (by
    rw [ht]
    convert e1 using 2
    simp [bracketStatement]), e2, k4, h4]
  split <;> split <;> omega

/-- C151. The number of arguments of a function is not limited. -/
theorem C151_arguments (act : Actions V S) (hact : ∀ r vs s, (act r vs s).1 ≠ none) (v0 : V) (s : S) (before after : List (List (Kind × V)))
    (hb : ∀ t ∈ before ++ after, t.length ≤ 98 ∧ ∃ F : Forest V, F.Derives [.n .statement] t) (tokens : List (Kind × V)) (a : Fin 5)
    (l : List (Fin 5)) (ht : tokens.map Prod.fst = callStatement a l) :
    ∃ s', Returns act stackDepth v0 (before.flatten ++ tokens ++ after.flatten) s (.done s') := by
  obtain ⟨h1, h2, h3, h4⟩ := exprF_ok a []
  obtain ⟨R, K, k1, k2, k3, k4, k5⟩ := left_list .exprList 38 rfl .expression rfl (fun x : Fin 5 => exprF x []) (fun x => [operand x]) 1 (by
      intro x
      obtain ⟨h1, h2, h3, h4⟩ := exprF_ok x []
      exact ⟨h1, h2, by simpa using h3, fun h => by rw [h4]; simp⟩) l 39 (exprF a []) [operand a] rfl h2 h1 (by simpa using h3)
    (by intro h; rw [h4]; simp)
  have kv : (Forest.node 35 (.tok .identifier () (.tok .lbracket () (.node R K (.tok .rbracket () .nil)))) .nil).Valid := by
    refine ⟨?_, ⟨k2, k3, trivial⟩, trivial⟩
    simp only [Forest.syms, k1]
    rfl
  obtain ⟨a1, a2, a3, a4⟩ := atomF_ok (kinds := [.identifier, .lbracket] ++ ([operand a] ++ l.flatMap fun x => [.comma, operand x]) ++ [.rbracket]) kv rfl
    (by
      simp only [Forest.yield, k4]
      simp [plain])
  obtain ⟨e1, e2⟩ := assignF_ok a1 a2 a3
  rw [accepted_iff hact v0 s before after hb tokens (by
    rw [ht]
    convert e1 using 2
    simp [callStatement]), e2, a4]
  have := k5 5
  have := k5 6
  simp only [Forest.height]
  split <;> simp only [Nat.reduceAdd] <;> omega

/-- C151. The number of variables in a declaration is not limited. -/
theorem C151_declarations (act : Actions V S) (hact : ∀ r vs s, (act r vs s).1 ≠ none) (v0 : V) (s : S) (before after : List (List (Kind × V)))
    (hb : ∀ t ∈ before ++ after, t.length ≤ 98 ∧ ∃ F : Forest V, F.Derives [.n .statement] t) (tokens : List (Kind × V)) (t : Fin 3)
    (d : Option (Fin 5)) (l : List (Option (Fin 5))) (ht : tokens.map Prod.fst = declStatement t d l) :
    ∃ s', Returns act stackDepth v0 (before.flatten ++ tokens ++ after.flatten) s (.done s') := by
  let item : Option (Fin 5) → Forest Unit := fun
    | none => .node 13 (.tok .identifier () .nil) .nil
    | some a => .node 14 (.node 16 (.tok .identifier () (.tok .equal () (exprF a []))) .nil) .nil
  have hitem : ∀ x, (item x).Valid ∧ (item x).syms = [.n .declaration] ∧ (item x).yield = plain (declared x) ∧ ∀ h, (item x).height h ≤ h + 3 := by
    intro x
    rcases x with _ | a
    · exact ⟨⟨rfl, trivial, trivial⟩, rfl, rfl, fun h => by simp [item, Forest.height]⟩
    · obtain ⟨h1, h2, h3, h4⟩ := exprF_ok a []
      refine ⟨⟨rfl, ⟨?_, h1, trivial⟩, trivial⟩, rfl, ?_, fun h => ?_⟩
      · rw [Forest.syms, Forest.syms, h2]; rfl
      · simp only [item, Forest.yield, h3]
        rfl
      · simp only [item, Forest.height, h4, List.length_nil]
        omega
  obtain ⟨h1, h2, h3, h4⟩ := hitem d
  obtain ⟨R, K, k1, k2, k3, k4, k5⟩ := left_list .decllist 11 rfl .declaration rfl item declared 3 hitem l 12 (item d) (declared d) rfl h2 h1 h3
    (fun h => (h4 h).trans (by omega))
  have hty : ∃ r : Fin 48, lhs r = .typedecl ∧ rhs r = [.t ((![.intDecl, .floatDecl, .stringDecl] : Fin 3 → Kind) t)] := by
    revert t
    have : ∀ t : Fin 3, ∃ r : Fin 48, lhs r = .typedecl ∧ rhs r = [.t ((![.intDecl, .floatDecl, .stringDecl] : Fin 3 → Kind) t)] := by decide
    exact fun t _ => this t
  obtain ⟨r, r1, r2⟩ := hty
  rw [accepted_iff hact v0 s before after hb tokens (F := .node 3 (.node r (.tok ((![.intDecl, .floatDecl, .stringDecl] : Fin 3 → Kind) t) () .nil)
      (.node R K (.tok .semicolon () .nil))) .nil) (by
    rw [ht]
    refine ⟨⟨?_, ⟨r2.symm, trivial, k2, k3, trivial⟩, trivial⟩, rfl, ?_⟩
    · simp only [Forest.syms, k1, r1]
      rfl
    · simp only [Forest.yield, k4]
      simp [plain, declStatement])]
  have := k5 2
  have := k5 3
  simp only [Forest.height]
  split <;> simp only [Nat.reduceAdd] <;> omega

/-- `y = 1;` -/
def shortStatement : List (Kind × Unit) := plain [.identifier, .equal, .integer, .semicolon]

theorem shortStatement_ok : ∀ t ∈ [shortStatement], t.length ≤ 98 ∧ ∃ F : Forest Unit, F.Derives [.n .statement] t := by
  intro t ht
  obtain rfl := List.mem_singleton.mp ht
  obtain ⟨h1, h2, h3, -⟩ := exprF_ok 2 []
  exact ⟨by decide, assignF (exprF 2 []), (assignF_ok h1 h2 h3).1⟩

theorem logAct_ok : ∀ r vs s, (logAct r vs s).1 ≠ none := fun _ _ _ => by simp [logAct]

/-- What is accepted depends on the place of a statement: the same sum of 49 numbers is accepted as the first statement of a file, and is an error after
`y = 1;`. -/
theorem C151_place : let sum := plain (sumStatement 2 (List.replicate 48 (true, 2)))
    (∃ s', Returns logAct stackDepth () (sum ++ shortStatement) [] (.done s')) ∧
    ¬ ∃ s', Returns logAct stackDepth () (shortStatement ++ sum) [] (.done s') := by
  have hk : ∀ l : List Kind, (plain l).map Prod.fst = l := fun l => by simp [plain, Function.comp_def]
  constructor
  · have := (C151_sums logAct logAct_ok () [] [] [shortStatement] shortStatement_ok _ 2 (List.replicate 48 (true, 2)) (hk _)).2 (by simp)
    simpa using this
  · have := (C151_sums logAct logAct_ok () [] [shortStatement] [] shortStatement_ok _ 2 (List.replicate 48 (true, 2)) (hk _)).not.2 (by simp)
    simpa using this

/-- the hypotheses of C151 are met: a thousand arguments, or variables, after another statement; and 94 parentheses, but not 95 -/
example : (∃ s', Returns logAct stackDepth () (shortStatement ++ plain (callStatement 3 (List.replicate 999 1))) [] (.done s')) ∧
    (∃ s', Returns logAct stackDepth () (shortStatement ++ plain (declStatement 1 none (List.replicate 999 (some 2)))) [] (.done s')) ∧
    (∃ s', Returns logAct stackDepth () (shortStatement ++ plain (bracketStatement 3 94)) [] (.done s')) ∧
    ¬ ∃ s', Returns logAct stackDepth () (shortStatement ++ plain (bracketStatement 3 95)) [] (.done s') := by
  have hk : ∀ l : List Kind, (plain l).map Prod.fst = l := fun l => by simp [plain, Function.comp_def]
  have hx : ∀ t : List (Kind × Unit), [shortStatement].flatten ++ t ++ [].flatten = shortStatement ++ t := fun t => by
    rw [List.flatten_singleton, List.flatten_nil, List.append_nil]
  refine ⟨?_, ?_, ?_, ?_⟩
  · rw [← hx]; exact C151_arguments logAct logAct_ok () [] [shortStatement] [] shortStatement_ok _ 3 (List.replicate 999 1) (hk _)
  · rw [← hx]; exact C151_declarations logAct logAct_ok () [] [shortStatement] [] shortStatement_ok _ 1 none (List.replicate 999 (some 2)) (hk _)
  · rw [← hx]; exact (C151_parentheses logAct logAct_ok () [] [shortStatement] [] shortStatement_ok _ 3 94 (hk _)).2 (by simp)
  · rw [← hx]; exact (C151_parentheses logAct logAct_ok () [] [shortStatement] [] shortStatement_ok _ 3 95 (hk _)).not.2 (by simp)

end Schnek.Props
