import Verif.Spec.StackLimit
import Verif.Props.Overflow

/-!
# How much of the parser's stack statements need
-/

namespace Schnek.Lemma.StackLimit

open Schnek.Lemon Schnek.Spec Schnek.Lemma.Lemon
open Schnek.Scanner (Kind)

variable {V S : Type}

/-- the values of the tokens do not matter -/
theorem relabel (F : Forest Unit) : ∀ toks : List (Kind × V), toks.map Prod.fst = F.yield.map Prod.fst →
    ∃ G : Forest V, G.syms = F.syms ∧ (F.Valid → G.Valid) ∧ G.yield = toks ∧ ∀ h, G.height h = F.height h := by
  induction F with
  | nil =>
    intro toks h
    refine ⟨.nil, rfl, id, ?_, fun _ => rfl⟩
    rw [Forest.yield, List.map_nil, List.map_eq_nil_iff] at h
    rw [h, Forest.yield]
  | tok k v rest ih =>
    intro toks h
    rcases toks with _ | ⟨⟨k', v'⟩, toks⟩
    · simp [Forest.yield] at h
    · simp only [Forest.yield, List.map_cons, List.cons.injEq] at h
      obtain ⟨rfl, h⟩ := h
      obtain ⟨G, h1, h2, h3, h4⟩ := ih toks h
      exact ⟨.tok k' v' G, by simp only [Forest.syms, h1], h2, by simp only [Forest.yield, h3], fun h => h4 (h + 1)⟩
  | node r kids rest ih1 ih2 =>
    intro toks h
    rw [Forest.yield, List.map_append, List.map_eq_append_iff] at h
    obtain ⟨t1, t2, rfl, e1, e2⟩ := h
    obtain ⟨G1, a1, a2, a3, a4⟩ := ih1 t1 e1
    obtain ⟨G2, b1, b2, b3, b4⟩ := ih2 t2 e2
    exact ⟨.node r G1 G2, by simp only [Forest.syms, b1], fun hv => ⟨a1.trans hv.1, a2 hv.2.1, b2 hv.2.2⟩, by simp only [Forest.yield, a3, b3],
      fun h => by simp only [Forest.height, a4, b4]⟩

/-- if no action throws, none of a derivation does -/
theorem eval_some {act : Actions V S} (hact : ∀ r vs s, (act r vs s).1 ≠ none) (F : Forest V) : ∀ s, ∃ vs s', F.eval act s = (some vs, s') := by
  induction F with
  | nil => exact fun s => ⟨_, _, rfl⟩
  | tok k v rest ih =>
    intro s
    obtain ⟨vs, s', h⟩ := ih s
    exact ⟨v :: vs, s', by rw [Forest.eval, h]⟩
  | node r kids rest ih1 ih2 =>
    intro s
    obtain ⟨ws, s1, h1⟩ := ih1 s
    have := hact r ws s1
    rcases h2 : act r ws s1 with ⟨_ | v, s2⟩
    · rw [h2] at this; exact absurd rfl this
    · obtain ⟨vs, s3, h3⟩ := ih2 s2
      exact ⟨v :: vs, s3, by simp only [Forest.eval, h1, h2, h3]⟩

/-- a derivation tree of a statement is a node -/
theorem statement_node {F : Forest V} {toks : List (Kind × V)} (h : F.Derives [.n .statement] toks) :
    ∃ r kids, F = .node r kids .nil ∧ lhs r = .statement ∧ kids.syms = rhs r ∧ kids.Valid ∧ kids.yield = toks := by
  obtain ⟨h1, h2, h3⟩ := h
  cases F with
  | nil => simp [Forest.syms] at h2
  | tok k v rest => simp [Forest.syms] at h2
  | node r kids rest =>
    simp only [Forest.syms, List.cons.injEq, Sym.n.injEq] at h2
    obtain ⟨h4, h5⟩ := h2
    have : rest = .nil := by
      cases rest with
      | nil => rfl
      | tok k v rest => simp [Forest.syms] at h5
      | node r kids rest => simp [Forest.syms] at h5
    subst this
    refine ⟨r, kids, rfl, h4, h1.1, h1.2.1, ?_⟩
    rw [← h3, Forest.yield, Forest.yield, List.append_nil]

/-- the rest of the list of statements after a tree -/
theorem list_rest (N : ℕ) (hN : 3 ≤ N) (Fs : List (Forest V)) : ∀ (toks : List (List (Kind × V))),
    List.Forall₂ (fun F t => F.Derives [.n .statement] t) Fs toks → ∀ (R : Fin 48) (K : Forest V), lhs R = .statementlist → K.syms = rhs R → K.Valid →
    ∃ (R' : Fin 48) (K' : Forest V), lhs R' = .statementlist ∧ K'.syms = rhs R' ∧ K'.Valid ∧ K'.yield = K.yield ++ toks.flatten ∧
      (K'.height 1 ≤ N ↔ K.height 1 ≤ N ∧ ∀ F ∈ Fs, F.height 2 ≤ N) := by
  induction Fs with
  | nil =>
    intro toks ht R K h1 h2 h3
    cases ht
    exact ⟨R, K, h1, h2, h3, by simp, by simp⟩
  | cons F Fs ih =>
    intro toks ht R K h1 h2 h3
    cases ht with
    | @cons _ t _ ts hF hFs =>
      have hh := hF
      obtain ⟨r, kids, rfl, e1, e2, e3, e4⟩ := statement_node hF
      obtain ⟨R', K', f1, f2, f3, f4, f5⟩ := ih ts hFs 1 (.node R K (.node r kids .nil)) rfl (by
        simp only [Forest.syms, h1, e1]
        rfl) ⟨h2, h3, e2, e3, trivial⟩
      refine ⟨R', K', f1, f2, f3, ?_, ?_⟩
      · rw [f4]
        simp only [Forest.yield, e4, List.append_nil, List.flatten_cons, List.append_assoc]
      · rw [f5]
        simp only [Forest.height, List.forall_mem_cons, max_le_iff]
        tauto

/-- the limit for the first statement and for the others -/
theorem file_height (N : ℕ) (hN : 3 ≤ N) (F : Forest V) (Fs : List (Forest V)) (t : List (Kind × V)) (ts : List (List (Kind × V)))
    (hF : F.Derives [.n .statement] t) (hFs : List.Forall₂ (fun F t => F.Derives [.n .statement] t) Fs ts) :
    ∃ T : Forest V, T.Derives [.n .deck] (t ++ ts.flatten) ∧ (T.height 1 ≤ N ↔ F.height 1 ≤ N ∧ ∀ F ∈ Fs, F.height 2 ≤ N) := by
  obtain ⟨r, kids, rfl, e1, e2, e3, e4⟩ := statement_node hF
  obtain ⟨R, K, f1, f2, f3, f4, f5⟩ := list_rest N hN Fs ts hFs 2 (.node r kids .nil) rfl (by simp only [Forest.syms, e1]; rfl) ⟨e2, e3, trivial⟩
  refine ⟨.node 0 (.node R K .nil) .nil, ⟨⟨?_, ⟨f2, f3, trivial⟩, trivial⟩, rfl, ?_⟩, ?_⟩
  · simp only [Forest.syms, f1]
    rfl
  · simp only [Forest.yield, f4, e4, List.append_nil]
  · rw [← f5]
    simp only [Forest.height, max_le_iff]
    constructor
    · exact fun h => h.1.1
    · exact fun h => ⟨⟨h, by omega⟩, by omega⟩

/-- a statement of which the need is known, among short ones -/
theorem accepted_iff {act : Actions V S} (hact : ∀ r vs s, (act r vs s).1 ≠ none) (v0 : V) (s : S) (before after : List (List (Kind × V)))
    (hb : ∀ t ∈ before ++ after, t.length ≤ 98 ∧ ∃ F : Forest V, F.Derives [.n .statement] t) (toks : List (Kind × V)) {F : Forest Unit}
    (hF : F.Derives [.n .statement] (plain (toks.map Prod.fst))) :
    (∃ s', Returns act stackDepth v0 (before.flatten ++ toks ++ after.flatten) s (.done s')) ↔
      F.height (if before = [] then 1 else 2) ≤ 100 := by
  obtain ⟨G, g1, g2, g3, g4⟩ := relabel F toks (by rw [hF.leaves]; simp [plain, Function.comp_def])
  have hG : G.Derives [.n .statement] toks := ⟨g2 hF.valid, g1.trans hF.roots, g3⟩
  have hlist : ∀ l : List (List (Kind × V)), (∀ t ∈ l, t ∈ before ++ after) → ∃ Fs : List (Forest V),
      List.Forall₂ (fun F t => F.Derives [.n .statement] t) Fs l ∧ ∀ F ∈ Fs, F.height 1 ≤ 100 ∧ F.height 2 ≤ 100 := by
    intro l
    induction l with
    | nil => exact fun _ => ⟨[], .nil, by simp⟩
    | cons t l ih =>
      intro hl
      obtain ⟨Fs, a, b⟩ := ih fun t ht => hl t (List.mem_cons_of_mem _ ht)
      obtain ⟨hlen, E, hE⟩ := hb t (hl t List.mem_cons_self)
      refine ⟨E :: Fs, .cons hE a, ?_⟩
      intro E' hE'
      rcases List.mem_cons.mp hE' with rfl | h
      · have h1 := height_le E' 1 hE.valid
        have h2 := height_le E' 2 hE.valid
        rw [hE.leaves] at h1 h2
        omega
      · exact b E' h
  obtain ⟨As, a1, a2⟩ := hlist after (by simp +contextual)
  have key : ∀ T : Forest V, T.Derives [.n .deck] (before.flatten ++ toks ++ after.flatten) →
      ((∃ s', Returns act stackDepth v0 (before.flatten ++ toks ++ after.flatten) s (.done s')) ↔ T.height 1 ≤ 100) := by
    intro T hT
    obtain ⟨vs, s', he⟩ := eval_some hact T s
    constructor
    · rintro ⟨s2, h⟩
      exact ((Props.C149_accepted_iff act v0 _ s s2 T hT).1 h).1
    · intro h
      exact ⟨s', (Props.C149_accepted_iff act v0 _ s s' T hT).2 ⟨h, vs, he⟩⟩
  rcases before with _ | ⟨t, before⟩
  · obtain ⟨T, hT, hh⟩ := file_height 100 (by omega) G As toks after hG a1
    rw [key T (by simpa using hT), hh, g4]
    simp only [if_true]
    exact ⟨fun h => h.1, fun h => ⟨h, fun F hF => (a2 F hF).2⟩⟩
  · obtain ⟨Bs, b1, b2⟩ := hlist before (by simp +contextual)
    obtain ⟨hlen, E, hE⟩ := hb t (by simp)
    obtain ⟨T, hT, hh⟩ := file_height 100 (by omega) E (Bs ++ G :: As) t (before ++ toks :: after) hE
      (List.rel_append b1 (.cons hG a1))
    have h1 := height_le E 1 hE.valid
    rw [hE.leaves] at h1
    rw [key T (by simpa [List.append_assoc] using hT), hh, if_neg (by simp), ← g4]
    constructor
    · exact fun h => h.2 G (by simp)
    · refine fun h => ⟨by omega, fun F hF => ?_⟩
      rcases List.mem_append.mp hF with hF | hF
      · exact (b2 F hF).2
      · rcases List.mem_cons.mp hF with rfl | hF
        · exact h
        · exact (a2 F hF).2

/-! ## derivations -/

/-- the rule `value ::= operand` -/
def valueRule (a : Fin 5) : Fin 48 := ⟨40 + a, by omega⟩

theorem valueRule_ok (a : Fin 5) : lhs (valueRule a) = .value ∧ rhs (valueRule a) = [.t (operand a)] := by
  revert a
  decide

/-- an operand, as `atomic` -/
def valF (a : Fin 5) (rest : Forest Unit) : Forest Unit := .node 37 (.node (valueRule a) (.tok (operand a) () .nil) .nil) rest

theorem valF_ok (a : Fin 5) (rest : Forest Unit) : ((valF a rest).Valid ↔ rest.Valid) ∧ (valF a rest).syms = .n .atomic :: rest.syms ∧
    (valF a rest).yield = (operand a, ()) :: rest.yield ∧ ∀ h, (valF a rest).height h = rest.height (h + 1) := by
  refine ⟨⟨fun h => h.2.2, fun h => ⟨?_, ⟨(valueRule_ok a).2.symm, trivial, trivial⟩, h⟩⟩, rfl, rfl, fun h => ?_⟩
  · simp only [Forest.syms, (valueRule_ok a).1]
    rfl
  · have := le_height rest (h + 1)
    simp only [valF, Forest.height]
    omega

/-- an operand, as `term` -/
def termF (a : Fin 5) (rest : Forest Unit) : Forest Unit := .node 28 (.node 30 (valF a .nil) .nil) rest

theorem termF_ok (a : Fin 5) (rest : Forest Unit) : ((termF a rest).Valid ↔ rest.Valid) ∧ (termF a rest).syms = .n .term :: rest.syms ∧
    (termF a rest).yield = (operand a, ()) :: rest.yield ∧ ∀ h, (termF a rest).height h = rest.height (h + 1) := by
  obtain ⟨h1, h2, h3, h4⟩ := valF_ok a .nil
  refine ⟨⟨fun h => h.2.2, fun h => ⟨rfl, ⟨rfl, h1.mpr trivial, trivial⟩, h⟩⟩, rfl, ?_, fun h => ?_⟩
  · simp only [termF, Forest.yield, h3, List.append_nil, List.cons_append, List.nil_append]
  · have := le_height rest (h + 1)
    simp only [termF, Forest.height, h4]
    omega

/-- the operands of a sum after the first -/
def sumF : Fin 5 → List (Bool × Fin 5) → Forest Unit
  | a, [] => .node 22 (termF a .nil) .nil
  | a, (true, c) :: l => .node 20 (termF a (.tok .plus () (sumF c l))) .nil
  | a, (false, c) :: l => .node 21 (termF a (.tok .minus () (sumF c l))) .nil

theorem sumF_ok (a : Fin 5) (l : List (Bool × Fin 5)) : (sumF a l).Valid ∧ (sumF a l).syms = [.n .unsignedExpr] ∧
    (sumF a l).yield = plain (operand a :: l.flatMap (fun x => [if x.1 then .plus else .minus, operand x.2])) ∧
    ∀ h, (sumF a l).height h = h + 1 + 2 * l.length := by
  induction l generalizing a with
  | nil =>
    obtain ⟨h1, h2, h3, h4⟩ := termF_ok a .nil
    refine ⟨⟨rfl, h1.mpr trivial, trivial⟩, rfl, ?_, fun h => ?_⟩
    · simp only [sumF, Forest.yield, h3]
      rfl
    · simp only [sumF, Forest.height, h4, List.length_nil]
      omega
  | cons x l ih =>
    obtain ⟨b, c⟩ := x
    obtain ⟨i1, i2, i3, i4⟩ := ih c
    cases b
    · obtain ⟨h1, h2, h3, h4⟩ := termF_ok a (.tok .minus () (sumF c l))
      refine ⟨⟨?_, h1.mpr i1, trivial⟩, rfl, ?_, fun h => ?_⟩
      · rw [h2, Forest.syms, i2]; rfl
      · simp only [sumF, Forest.yield, h3, i3]
        simp [plain]
      · simp only [sumF, Forest.height, h4, i4, List.length_cons]
        omega
    · obtain ⟨h1, h2, h3, h4⟩ := termF_ok a (.tok .plus () (sumF c l))
      refine ⟨⟨?_, h1.mpr i1, trivial⟩, rfl, ?_, fun h => ?_⟩
      · rw [h2, Forest.syms, i2]; rfl
      · simp only [sumF, Forest.yield, h3, i3]
        simp [plain]
      · simp only [sumF, Forest.height, h4, i4, List.length_cons]
        omega

/-- a sum, as `expression` -/
def exprF : Fin 5 → List (Bool × Fin 5) → Forest Unit
  | a, [] => .node 19 (.node 25 (termF a .nil) .nil) .nil
  | a, (true, c) :: l => .node 17 (.node 25 (termF a .nil) (.tok .plus () (sumF c l))) .nil
  | a, (false, c) :: l => .node 18 (.node 25 (termF a .nil) (.tok .minus () (sumF c l))) .nil

theorem exprF_ok (a : Fin 5) (l : List (Bool × Fin 5)) : (exprF a l).Valid ∧ (exprF a l).syms = [.n .expression] ∧
    (exprF a l).yield = plain (operand a :: l.flatMap (fun x => [if x.1 then .plus else .minus, operand x.2])) ∧
    ∀ h, (exprF a l).height h = h + 1 + 2 * l.length := by
  obtain ⟨h1, h2, h3, h4⟩ := termF_ok a .nil
  rcases l with _ | ⟨⟨b, c⟩, l⟩
  · refine ⟨⟨rfl, ⟨rfl, h1.mpr trivial, trivial⟩, trivial⟩, rfl, ?_, fun h => ?_⟩
    · simp only [exprF, Forest.yield, h3]
      rfl
    · simp only [exprF, Forest.height, h4, List.length_nil]
      omega
  · obtain ⟨i1, i2, i3, i4⟩ := sumF_ok c l
    cases b
    · refine ⟨⟨?_, ⟨rfl, h1.mpr trivial, i1⟩, trivial⟩, rfl, ?_, fun h => ?_⟩
      · rw [Forest.syms, Forest.syms, i2]; rfl
      · simp only [exprF, Forest.yield, h3, i3]
        simp [plain]
      · simp only [exprF, Forest.height, h4, i4, List.length_cons]
        omega
    · refine ⟨⟨?_, ⟨rfl, h1.mpr trivial, i1⟩, trivial⟩, rfl, ?_, fun h => ?_⟩
      · rw [Forest.syms, Forest.syms, i2]; rfl
      · simp only [exprF, Forest.yield, h3, i3]
        simp [plain]
      · simp only [exprF, Forest.height, h4, i4, List.length_cons]
        omega

/-- a product, as `term` -/
def prodF : Fin 5 → List (Bool × Fin 5) → Forest Unit
  | a, [] => .node 28 (.node 30 (valF a .nil) .nil) .nil
  | a, (true, c) :: l => .node 26 (.node 30 (valF a .nil) (.tok .times () (prodF c l))) .nil
  | a, (false, c) :: l => .node 27 (.node 30 (valF a .nil) (.tok .divide () (prodF c l))) .nil

theorem prodF_ok (a : Fin 5) (l : List (Bool × Fin 5)) : (prodF a l).Valid ∧ (prodF a l).syms = [.n .term] ∧
    (prodF a l).yield = plain (operand a :: l.flatMap (fun x => [if x.1 then .times else .divide, operand x.2])) ∧
    ∀ h, (prodF a l).height h = h + 1 + 2 * l.length := by
  induction l generalizing a with
  | nil =>
    obtain ⟨h1, h2, h3, h4⟩ := valF_ok a .nil
    refine ⟨⟨rfl, ⟨rfl, h1.mpr trivial, trivial⟩, trivial⟩, rfl, ?_, fun h => ?_⟩
    · simp only [prodF, Forest.yield, h3]
      rfl
    · simp only [prodF, Forest.height, h4, List.length_nil]
      omega
  | cons x l ih =>
    obtain ⟨b, c⟩ := x
    obtain ⟨i1, i2, i3, i4⟩ := ih c
    obtain ⟨h1, h2, h3, h4⟩ := valF_ok a .nil
    cases b
    · refine ⟨⟨?_, ⟨rfl, h1.mpr trivial, i1⟩, trivial⟩, rfl, ?_, fun h => ?_⟩
      · rw [Forest.syms, Forest.syms, i2]; rfl
      · simp only [prodF, Forest.yield, h3, i3]
        simp [plain]
      · simp only [prodF, Forest.height, h4, i4, List.length_cons]
        omega
    · refine ⟨⟨?_, ⟨rfl, h1.mpr trivial, i1⟩, trivial⟩, rfl, ?_, fun h => ?_⟩
      · rw [Forest.syms, Forest.syms, i2]; rfl
      · simp only [prodF, Forest.yield, h3, i3]
        simp [plain]
      · simp only [prodF, Forest.height, h4, i4, List.length_cons]
        omega

/-- parentheses, as `atomic` -/
def brF (a : Fin 5) : ℕ → Forest Unit
  | 0 => valF a .nil
  | d + 1 => .node 34 (.tok .lbracket () (.node 19 (.node 25 (.node 28 (.node 30 (brF a d) .nil) .nil) .nil) (.tok .rbracket () .nil))) .nil

theorem brF_ok (a : Fin 5) (d : ℕ) : (brF a d).Valid ∧ (brF a d).syms = [.n .atomic] ∧
    (brF a d).yield = plain (List.replicate d .lbracket ++ [operand a] ++ List.replicate d .rbracket) ∧
    ∀ h, (brF a d).height h = if d = 0 then h + 1 else h + d + 2 := by
  induction d with
  | zero =>
    obtain ⟨h1, h2, h3, h4⟩ := valF_ok a .nil
    exact ⟨h1.mpr trivial, rfl, by rw [brF, h3]; rfl, fun h => by rw [brF, h4]; rfl⟩
  | succ d ih =>
    obtain ⟨i1, i2, i3, i4⟩ := ih
    refine ⟨⟨rfl, ⟨rfl, ⟨rfl, ⟨rfl, ⟨i2, i1, trivial⟩, trivial⟩, trivial⟩, trivial⟩, trivial⟩, rfl, ?_, fun h => ?_⟩
    · simp only [brF, Forest.yield, i3]
      rw [List.replicate_succ, List.replicate_succ']
      simp [plain]
    · simp only [brF, Forest.height, i4]
      rw [if_neg (Nat.succ_ne_zero d)]
      split <;> omega

/-- `x = …;` -/
def assignF (e : Forest Unit) : Forest Unit := .node 4 (.node 16 (.tok .identifier () (.tok .equal () e)) (.tok .semicolon () .nil)) .nil

theorem assignF_ok {e : Forest Unit} {kinds : List Kind} (h1 : e.Valid) (h2 : e.syms = [.n .expression]) (h3 : e.yield = plain kinds) :
    (assignF e).Derives [.n .statement] (plain ([.identifier, .equal] ++ kinds ++ [.semicolon])) ∧
      ∀ h, (assignF e).height h = e.height (h + 2) := by
  refine ⟨⟨⟨rfl, ⟨?_, h1, trivial⟩, trivial⟩, rfl, ?_⟩, fun h => ?_⟩
  · rw [Forest.syms, Forest.syms, h2]; rfl
  · simp only [assignF, Forest.yield, h3]
    simp [plain]
  · have := le_height e (h + 1 + 1)
    simp only [assignF, Forest.height]
    show _ = e.height (h + 1 + 1)
    omega

/-- an atomic expression as an expression -/
def atomF (e : Forest Unit) : Forest Unit := .node 19 (.node 25 (.node 28 (.node 30 e .nil) .nil) .nil) .nil

theorem atomF_ok {e : Forest Unit} {kinds : List Kind} (h1 : e.Valid) (h2 : e.syms = [.n .atomic]) (h3 : e.yield = plain kinds) :
    (atomF e).Valid ∧ (atomF e).syms = [.n .expression] ∧ (atomF e).yield = plain kinds ∧ ∀ h, (atomF e).height h = max (e.height h) (h + 1) := by
  refine ⟨⟨rfl, ⟨rfl, ⟨rfl, ⟨h2, h1, trivial⟩, trivial⟩, trivial⟩, trivial⟩, rfl, ?_, fun h => ?_⟩
  · simp only [atomF, Forest.yield, h3, List.append_nil]
  · simp only [atomF, Forest.height]
    omega

/-- the arguments of a call, or the declared variables: a list that grows to the right -/
theorem left_list {α : Type} (N : NT) (r : Fin 48) (hr : lhs r = N) (M : NT) (hrr : rhs r = [.n N, .t .comma, .n M]) (item : α → Forest Unit)
    (kinds : α → List Kind) (c : ℕ)
    (hitem : ∀ a, (item a).Valid ∧ (item a).syms = [.n M] ∧ (item a).yield = plain (kinds a) ∧ ∀ h, (item a).height h ≤ h + c) (l : List α) :
    ∀ (R : Fin 48) (K : Forest Unit) (k : List Kind), lhs R = N → K.syms = rhs R → K.Valid → K.yield = plain k → (∀ h, K.height h ≤ h + 2 + c) →
    ∃ (R' : Fin 48) (K' : Forest Unit), lhs R' = N ∧ K'.syms = rhs R' ∧ K'.Valid ∧ K'.yield = plain (k ++ l.flatMap fun a => .comma :: kinds a) ∧
      ∀ h, K'.height h ≤ h + 2 + c := by
  induction l with
  | nil =>
    intro R K k h1 h2 h3 h4 h5
    exact ⟨R, K, h1, h2, h3, by simpa using h4, h5⟩
  | cons a l ih =>
    intro R K k h1 h2 h3 h4 h5
    obtain ⟨i1, i2, i3, i4⟩ := hitem a
    obtain ⟨R', K', e1, e2, e3, e4, e5⟩ := ih r (.node R K (.tok .comma () (item a))) (k ++ .comma :: kinds a) hr (by
      rw [Forest.syms, Forest.syms, i2, h1, hrr]) ⟨h2, h3, i1⟩ (by
      simp only [Forest.yield, h4, i3]
      simp [plain]) (by
      intro h
      have := h5 h
      have := i4 (h + 1 + 1)
      simp only [Forest.height]
      omega)
    refine ⟨R', K', e1, e2, e3, ?_, e5⟩
    rw [e4]
    simp

end Schnek.Lemma.StackLimit
