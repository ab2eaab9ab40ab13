import Verif.Lemma.DeckText
import Verif.Spec.Lexer
import Mathlib.Data.Fintype.Basic
import Mathlib.Tactic.FinCases

/-!
# What the parser accepts is a sequence of statements
-/

namespace Schnek.Lemma.DeckText

open Schnek.Lemon Schnek.Spec Schnek.Deck
open Scanner (Kind Tok)

variable {F W : Type}

theorem means_app {O : FloatOps F} {T1 T2 : List Tok} {a b : List (DeckToken F)} (h : Means O T1 a) (h' : Means O T2 b) :
    Means O (T1 ++ T2) (a ++ b) := by
  unfold Means at *
  rw [List.map_append, List.map_append, h, h']

theorem means_one {O : FloatOps F} {t : Tok} {T : List Tok} {a : DeckToken F} {b : List (DeckToken F)} (h : meaning O t = some a)
    (h' : Means O T b) : Means O (t :: T) (a :: b) := by
  unfold Means at *
  rw [List.map_cons, List.map_cons, h, h']

theorem means_empty {O : FloatOps F} : Means O [] ([] : List (DeckToken F)) := rfl

/-- What the tokens derived from a nonterminal are. -/
def Covers (O : FloatOps F) : NT → List Tok → Prop
  | .deck, T => ∃ parts P, parts ≠ [] ∧ T = parts.flatten ∧ List.Forall₂ (IsStatement O) parts P
  | .statementlist, T => ∃ parts P, parts ≠ [] ∧ T = parts.flatten ∧ List.Forall₂ (IsStatement O) parts P
  | .statement, T => ∃ st, IsStatement O T st
  | .startblock, T => ∃ st, IsStatement O T st
  | .typedecl, T => ∃ t ty, T = [t] ∧ meaning O t = some (.type ty)
  | .decllist, T => ∃ ds, ds ≠ [] ∧ Means O T (List.intercalate [.expr .comma] (ds.map declTokens))
  | .declaration, T => ∃ d, Means O T (declTokens d)
  | .assignment, T => ∃ n e, Means O T (declTokens (n, some e))
  | .expression, T => ∃ e : Grammar.Expression F, Means O T (e.tokens.map .expr)
  | .signedTerm, T => ∃ e : Grammar.SignedTerm F, Means O T (e.tokens.map .expr)
  | .unsignedExpr, T => ∃ e : Grammar.Unsigned F, Means O T (e.tokens.map .expr)
  | .term, T => ∃ e : Grammar.Term F, Means O T (e.tokens.map .expr)
  | .power, T => ∃ e : Grammar.Power F, Means O T (e.tokens.map .expr)
  | .atomic, T => ∃ e : Grammar.Atomic F, Means O T (e.tokens.map .expr)
  | .signedAtomic, T => ∃ e : Grammar.SignedAtomic F, Means O T (e.tokens.map .expr)
  | .exprList, T => ∃ e : Grammar.ExprList F, Means O T (e.tokens.map .expr)
  | .value, T => ∃ e : Grammar.Atomic F, Means O T (e.tokens.map .expr)

/-- The same for a sequence of symbols. -/
def CoversAll (O : FloatOps F) : List Sym → List Tok → Prop
  | [], T => T = []
  | .t k :: ss, T => ∃ t T', T = t :: T' ∧ t.kind = k ∧ meaning O t ≠ none ∧ CoversAll O ss T'
  | .n N :: ss, T => ∃ T1 T2, T = T1 ++ T2 ∧ Covers O N T1 ∧ CoversAll O ss T2
  | .error :: _, _ => False

section

variable {O : FloatOps F} {t : Tok}

theorem meaning_identifier (h : t.kind = .identifier) : meaning O t = some (.expr (.ident (textOf t.text))) := by
  unfold meaning
  rw [h]

theorem meaning_string (h : t.kind = .string) : meaning O t = some (.expr (.lit (.str (textOf t.text)))) := by
  unfold meaning
  rw [h]

theorem meaning_include (h : t.kind = .includeKw) : meaning O t = none := by
  unfold meaning
  rw [h]

theorem meaning_path (h : t.kind = .pathIdentifier) : meaning O t = none := by
  unfold meaning
  rw [h]

theorem meaning_integer (h : t.kind = .integer) (h' : meaning O t ≠ none) : ∃ i, meaning O t = some (.expr (.lit (.int i))) := by
  unfold meaning at *
  rw [h] at h' ⊢
  simp only at h' ⊢
  rcases hr : O.readInt (textOf t.text) with _ | i
  · rw [hr] at h'
    exact absurd rfl h'
  · exact ⟨i, rfl⟩

theorem meaning_float (h : t.kind = .float) (h' : meaning O t ≠ none) : ∃ x, meaning O t = some (.expr (.lit (.float x))) := by
  unfold meaning at *
  rw [h] at h' ⊢
  simp only at h' ⊢
  rcases hr : O.readFloat (textOf t.text) with _ | i
  · rw [hr] at h'
    exact absurd rfl h'
  · exact ⟨i, rfl⟩

end

theorem forall₂_app {A B : Type} {R : A → B → Prop} {l : List A} {a : A} {l' : List B} {b : B} (h : List.Forall₂ R l l') (h' : R a b) :
    List.Forall₂ R (l ++ [a]) (l' ++ [b]) := by
  induction h with
  | nil => exact .cons h' .nil
  | cons h1 _ ih => exact .cons h1 ih

theorem covers_rule (O : FloatOps F) (r : Fin 48) (T : List Tok) (h : CoversAll O (rhs r) T) : Covers O (lhs r) T := by
  fin_cases r
  · -- 0
    obtain ⟨T0, T, rfl, c0, h⟩ := h
    obtain rfl : T = [] := h
    rw [List.append_nil]
    exact c0
  · -- 1
    obtain ⟨T0, T, rfl, c0, h⟩ := h
    obtain ⟨T1, T, rfl, c1, h⟩ := h
    obtain rfl : T = [] := h
    obtain ⟨parts, P, hne, rfl, hP⟩ := c0
    obtain ⟨st, hst⟩ := c1
    exact ⟨parts ++ [T1], P ++ [st], by simp, by simp, forall₂_app hP hst⟩
  · -- 2
    obtain ⟨T0, T, rfl, c0, h⟩ := h
    obtain rfl : T = [] := h
    obtain ⟨st, hst⟩ := c0
    exact ⟨[T0], [st], by simp, by simp, .cons hst .nil⟩
  · -- 3
    obtain ⟨T0, T, rfl, c0, h⟩ := h
    obtain ⟨T1, T, rfl, c1, h⟩ := h
    obtain ⟨t2, T, rfl, k2, m2, h⟩ := h
    obtain rfl : T = [] := h
    obtain ⟨t, ty, rfl, ht⟩ := c0
    obtain ⟨ds, hne, hm⟩ := c1
    have := means_one ht (means_app hm (means_one (show meaning O t2 = some (.semicolon) by unfold meaning; rw [k2]) means_empty))
    exact ⟨.decl ty ds, _, this, .decl ty ds hne⟩
  · -- 4
    obtain ⟨T0, T, rfl, c0, h⟩ := h
    obtain ⟨t1, T, rfl, k1, m1, h⟩ := h
    obtain rfl : T = [] := h
    obtain ⟨n, e, hm⟩ := c0
    have := means_app hm (means_one (show meaning O t1 = some (.semicolon) by unfold meaning; rw [k1]) means_empty)
    exact ⟨.assign n e, _, this, .assign n e⟩
  · -- 5
    obtain ⟨t0, T, rfl, k0, m0, h⟩ := h
    obtain ⟨t1, T, rfl, k1, m1, h⟩ := h
    obtain ⟨t2, T, rfl, k2, m2, h⟩ := h
    obtain rfl : T = [] := h
    exact absurd (meaning_include k0) m0
  · -- 6
    obtain ⟨T0, T, rfl, c0, h⟩ := h
    obtain rfl : T = [] := h
    rw [List.append_nil]
    exact c0
  · -- 7
    obtain ⟨t0, T, rfl, k0, m0, h⟩ := h
    obtain rfl : T = [] := h
    exact ⟨.stop, _, means_one (show meaning O t0 = some (.rbrace) by unfold meaning; rw [k0]) means_empty, .stop⟩
  · -- 8
    exact h.elim
  · -- 9
    obtain ⟨t0, T, rfl, k0, m0, h⟩ := h
    obtain ⟨t1, T, rfl, k1, m1, h⟩ := h
    obtain ⟨t2, T, rfl, k2, m2, h⟩ := h
    obtain rfl : T = [] := h
    exact ⟨.start _ _, _, means_one (meaning_identifier k0) (means_one (meaning_identifier k1) (means_one (show meaning O t2 = some (.lbrace) by unfold meaning; rw [k2]) means_empty)), .start _ _⟩
  · -- 10
    obtain ⟨t0, T, rfl, k0, m0, h⟩ := h
    obtain ⟨t1, T, rfl, k1, m1, h⟩ := h
    obtain rfl : T = [] := h
    exact ⟨.start _ _, _, means_one (meaning_identifier k0) (means_one (show meaning O t1 = some (.lbrace) by unfold meaning; rw [k1]) means_empty), .startClass _⟩
  · -- 11
    obtain ⟨T0, T, rfl, c0, h⟩ := h
    obtain ⟨t1, T, rfl, k1, m1, h⟩ := h
    obtain ⟨T2, T, rfl, c2, h⟩ := h
    obtain rfl : T = [] := h
    obtain ⟨ds, hne, hm⟩ := c0
    obtain ⟨d, hd⟩ := c2
    refine ⟨ds ++ [d], by simp, ?_⟩
    rw [List.map_append, List.map_singleton, intercalate_snoc _ _ _ (by simpa using hne)]
    have := means_app hm (means_one (show meaning O t1 = some (.expr .comma) by unfold meaning; rw [k1]) hd)
    simpa using this
  · -- 12
    obtain ⟨T0, T, rfl, c0, h⟩ := h
    obtain rfl : T = [] := h
    obtain ⟨d, hd⟩ := c0
    exact ⟨[d], by simp, by simpa [List.intercalate] using hd⟩
  · -- 13
    obtain ⟨t0, T, rfl, k0, m0, h⟩ := h
    obtain rfl : T = [] := h
    exact ⟨(_, none), means_one (meaning_identifier k0) means_empty⟩
  · -- 14
    obtain ⟨T0, T, rfl, c0, h⟩ := h
    obtain rfl : T = [] := h
    obtain ⟨n, e, hm⟩ := c0
    exact ⟨(n, some e), by rw [List.append_nil]; exact hm⟩
  · -- 15
    exact h.elim
  · -- 16
    obtain ⟨t0, T, rfl, k0, m0, h⟩ := h
    obtain ⟨t1, T, rfl, k1, m1, h⟩ := h
    obtain ⟨T2, T, rfl, c2, h⟩ := h
    obtain rfl : T = [] := h
    obtain ⟨e, hm⟩ := c2
    exact ⟨_, e, by rw [List.append_nil]; exact means_one (meaning_identifier k0) (means_one (show meaning O t1 = some (.equal) by unfold meaning; rw [k1]) hm)⟩
  · -- 17
    obtain ⟨T0, T, rfl, c0, h⟩ := h
    obtain ⟨t1, T, rfl, k1, m1, h⟩ := h
    obtain ⟨T2, T, rfl, c2, h⟩ := h
    obtain rfl : T = [] := h
    obtain ⟨e0, c0⟩ := c0
    obtain ⟨e2, c2⟩ := c2
    refine ⟨.add e0 e2, ?_⟩
    have := means_app c0 (means_one (show meaning O t1 = some (.expr .plus) by unfold meaning; rw [k1]) (means_app c2 (means_empty)))
    simpa [Grammar.Expression.tokens] using this
  · -- 18
    obtain ⟨T0, T, rfl, c0, h⟩ := h
    obtain ⟨t1, T, rfl, k1, m1, h⟩ := h
    obtain ⟨T2, T, rfl, c2, h⟩ := h
    obtain rfl : T = [] := h
    obtain ⟨e0, c0⟩ := c0
    obtain ⟨e2, c2⟩ := c2
    refine ⟨.sub e0 e2, ?_⟩
    have := means_app c0 (means_one (show meaning O t1 = some (.expr .minus) by unfold meaning; rw [k1]) (means_app c2 (means_empty)))
    simpa [Grammar.Expression.tokens] using this
  · -- 19
    obtain ⟨T0, T, rfl, c0, h⟩ := h
    obtain rfl : T = [] := h
    obtain ⟨e0, c0⟩ := c0
    refine ⟨.one e0, ?_⟩
    have := means_app c0 (means_empty)
    simpa [Grammar.Expression.tokens] using this
  · -- 20
    obtain ⟨T0, T, rfl, c0, h⟩ := h
    obtain ⟨t1, T, rfl, k1, m1, h⟩ := h
    obtain ⟨T2, T, rfl, c2, h⟩ := h
    obtain rfl : T = [] := h
    obtain ⟨e0, c0⟩ := c0
    obtain ⟨e2, c2⟩ := c2
    refine ⟨.add e0 e2, ?_⟩
    have := means_app c0 (means_one (show meaning O t1 = some (.expr .plus) by unfold meaning; rw [k1]) (means_app c2 (means_empty)))
    simpa [Grammar.Unsigned.tokens] using this
  · -- 21
    obtain ⟨T0, T, rfl, c0, h⟩ := h
    obtain ⟨t1, T, rfl, k1, m1, h⟩ := h
    obtain ⟨T2, T, rfl, c2, h⟩ := h
    obtain rfl : T = [] := h
    obtain ⟨e0, c0⟩ := c0
    obtain ⟨e2, c2⟩ := c2
    refine ⟨.sub e0 e2, ?_⟩
    have := means_app c0 (means_one (show meaning O t1 = some (.expr .minus) by unfold meaning; rw [k1]) (means_app c2 (means_empty)))
    simpa [Grammar.Unsigned.tokens] using this
  · -- 22
    obtain ⟨T0, T, rfl, c0, h⟩ := h
    obtain rfl : T = [] := h
    obtain ⟨e0, c0⟩ := c0
    refine ⟨.one e0, ?_⟩
    have := means_app c0 (means_empty)
    simpa [Grammar.Unsigned.tokens] using this
  · -- 23
    obtain ⟨t0, T, rfl, k0, m0, h⟩ := h
    obtain ⟨T1, T, rfl, c1, h⟩ := h
    obtain rfl : T = [] := h
    obtain ⟨e1, c1⟩ := c1
    refine ⟨.plus e1, ?_⟩
    have := means_one (show meaning O t0 = some (.expr .plus) by unfold meaning; rw [k0]) (means_app c1 (means_empty))
    simpa [Grammar.SignedTerm.tokens] using this
  · -- 24
    obtain ⟨t0, T, rfl, k0, m0, h⟩ := h
    obtain ⟨T1, T, rfl, c1, h⟩ := h
    obtain rfl : T = [] := h
    obtain ⟨e1, c1⟩ := c1
    refine ⟨.minus e1, ?_⟩
    have := means_one (show meaning O t0 = some (.expr .minus) by unfold meaning; rw [k0]) (means_app c1 (means_empty))
    simpa [Grammar.SignedTerm.tokens] using this
  · -- 25
    obtain ⟨T0, T, rfl, c0, h⟩ := h
    obtain rfl : T = [] := h
    obtain ⟨e0, c0⟩ := c0
    refine ⟨.one e0, ?_⟩
    have := means_app c0 (means_empty)
    simpa [Grammar.SignedTerm.tokens] using this
  · -- 26
    obtain ⟨T0, T, rfl, c0, h⟩ := h
    obtain ⟨t1, T, rfl, k1, m1, h⟩ := h
    obtain ⟨T2, T, rfl, c2, h⟩ := h
    obtain rfl : T = [] := h
    obtain ⟨e0, c0⟩ := c0
    obtain ⟨e2, c2⟩ := c2
    refine ⟨.mul e0 e2, ?_⟩
    have := means_app c0 (means_one (show meaning O t1 = some (.expr .times) by unfold meaning; rw [k1]) (means_app c2 (means_empty)))
    simpa [Grammar.Term.tokens] using this
  · -- 27
    obtain ⟨T0, T, rfl, c0, h⟩ := h
    obtain ⟨t1, T, rfl, k1, m1, h⟩ := h
    obtain ⟨T2, T, rfl, c2, h⟩ := h
    obtain rfl : T = [] := h
    obtain ⟨e0, c0⟩ := c0
    obtain ⟨e2, c2⟩ := c2
    refine ⟨.div e0 e2, ?_⟩
    have := means_app c0 (means_one (show meaning O t1 = some (.expr .divide) by unfold meaning; rw [k1]) (means_app c2 (means_empty)))
    simpa [Grammar.Term.tokens] using this
  · -- 28
    obtain ⟨T0, T, rfl, c0, h⟩ := h
    obtain rfl : T = [] := h
    obtain ⟨e0, c0⟩ := c0
    refine ⟨.one e0, ?_⟩
    have := means_app c0 (means_empty)
    simpa [Grammar.Term.tokens] using this
  · -- 29
    obtain ⟨T0, T, rfl, c0, h⟩ := h
    obtain ⟨t1, T, rfl, k1, m1, h⟩ := h
    obtain ⟨T2, T, rfl, c2, h⟩ := h
    obtain rfl : T = [] := h
    obtain ⟨e0, c0⟩ := c0
    obtain ⟨e2, c2⟩ := c2
    refine ⟨.pow e0 e2, ?_⟩
    have := means_app c0 (means_one (show meaning O t1 = some (.expr .exponent) by unfold meaning; rw [k1]) (means_app c2 (means_empty)))
    simpa [Grammar.Power.tokens] using this
  · -- 30
    obtain ⟨T0, T, rfl, c0, h⟩ := h
    obtain rfl : T = [] := h
    obtain ⟨e0, c0⟩ := c0
    refine ⟨.one e0, ?_⟩
    have := means_app c0 (means_empty)
    simpa [Grammar.Power.tokens] using this
  · -- 31
    obtain ⟨t0, T, rfl, k0, m0, h⟩ := h
    obtain ⟨T1, T, rfl, c1, h⟩ := h
    obtain rfl : T = [] := h
    obtain ⟨e1, c1⟩ := c1
    refine ⟨.plus e1, ?_⟩
    have := means_one (show meaning O t0 = some (.expr .plus) by unfold meaning; rw [k0]) (means_app c1 (means_empty))
    simpa [Grammar.SignedAtomic.tokens] using this
  · -- 32
    obtain ⟨t0, T, rfl, k0, m0, h⟩ := h
    obtain ⟨T1, T, rfl, c1, h⟩ := h
    obtain rfl : T = [] := h
    obtain ⟨e1, c1⟩ := c1
    refine ⟨.minus e1, ?_⟩
    have := means_one (show meaning O t0 = some (.expr .minus) by unfold meaning; rw [k0]) (means_app c1 (means_empty))
    simpa [Grammar.SignedAtomic.tokens] using this
  · -- 33
    obtain ⟨T0, T, rfl, c0, h⟩ := h
    obtain rfl : T = [] := h
    obtain ⟨e0, c0⟩ := c0
    refine ⟨.one e0, ?_⟩
    have := means_app c0 (means_empty)
    simpa [Grammar.SignedAtomic.tokens] using this
  · -- 34
    obtain ⟨t0, T, rfl, k0, m0, h⟩ := h
    obtain ⟨T1, T, rfl, c1, h⟩ := h
    obtain ⟨t2, T, rfl, k2, m2, h⟩ := h
    obtain rfl : T = [] := h
    obtain ⟨e1, c1⟩ := c1
    refine ⟨.paren e1, ?_⟩
    have := means_one (show meaning O t0 = some (.expr .lbracket) by unfold meaning; rw [k0]) (means_app c1 (means_one (show meaning O t2 = some (.expr .rbracket) by unfold meaning; rw [k2]) (means_empty)))
    simpa [Grammar.Atomic.tokens] using this
  · -- 35
    obtain ⟨t0, T, rfl, k0, m0, h⟩ := h
    obtain ⟨t1, T, rfl, k1, m1, h⟩ := h
    obtain ⟨T2, T, rfl, c2, h⟩ := h
    obtain ⟨t3, T, rfl, k3, m3, h⟩ := h
    obtain rfl : T = [] := h
    obtain ⟨e, hm⟩ := c2
    refine ⟨.call (textOf t0.text) e, ?_⟩
    have := means_one (meaning_identifier k0) (means_one (show meaning O t1 = some (.expr .lbracket) by unfold meaning; rw [k1]) (means_app hm (means_one (show meaning O t3 = some (.expr .rbracket) by unfold meaning; rw [k3]) means_empty)))
    simpa [Grammar.Atomic.tokens] using this
  · -- 36
    obtain ⟨t0, T, rfl, k0, m0, h⟩ := h
    obtain ⟨t1, T, rfl, k1, m1, h⟩ := h
    obtain ⟨t2, T, rfl, k2, m2, h⟩ := h
    obtain rfl : T = [] := h
    exact ⟨.callNone _, means_one (meaning_identifier k0) (means_one (show meaning O t1 = some (.expr .lbracket) by unfold meaning; rw [k1]) (means_one (show meaning O t2 = some (.expr .rbracket) by unfold meaning; rw [k2]) means_empty))⟩
  · -- 37
    obtain ⟨T0, T, rfl, c0, h⟩ := h
    obtain rfl : T = [] := h
    obtain ⟨e, hm⟩ := c0
    exact ⟨e, by rw [List.append_nil]; exact hm⟩
  · -- 38
    obtain ⟨T0, T, rfl, c0, h⟩ := h
    obtain ⟨t1, T, rfl, k1, m1, h⟩ := h
    obtain ⟨T2, T, rfl, c2, h⟩ := h
    obtain rfl : T = [] := h
    obtain ⟨e0, c0⟩ := c0
    obtain ⟨e2, c2⟩ := c2
    refine ⟨.snoc e0 e2, ?_⟩
    have := means_app c0 (means_one (show meaning O t1 = some (.expr .comma) by unfold meaning; rw [k1]) (means_app c2 (means_empty)))
    simpa [Grammar.ExprList.tokens] using this
  · -- 39
    obtain ⟨T0, T, rfl, c0, h⟩ := h
    obtain rfl : T = [] := h
    obtain ⟨e0, c0⟩ := c0
    refine ⟨.one e0, ?_⟩
    have := means_app c0 (means_empty)
    simpa [Grammar.ExprList.tokens] using this
  · -- 40
    obtain ⟨t0, T, rfl, k0, m0, h⟩ := h
    obtain rfl : T = [] := h
    exact absurd (meaning_path k0) m0
  · -- 41
    obtain ⟨t0, T, rfl, k0, m0, h⟩ := h
    obtain rfl : T = [] := h
    exact ⟨.ident _, means_one (meaning_identifier k0) means_empty⟩
  · -- 42
    obtain ⟨t0, T, rfl, k0, m0, h⟩ := h
    obtain rfl : T = [] := h
    obtain ⟨i, hi⟩ := meaning_integer k0 m0
    exact ⟨.lit (.int i), means_one hi means_empty⟩
  · -- 43
    obtain ⟨t0, T, rfl, k0, m0, h⟩ := h
    obtain rfl : T = [] := h
    obtain ⟨i, hi⟩ := meaning_float k0 m0
    exact ⟨.lit (.float i), means_one hi means_empty⟩
  · -- 44
    obtain ⟨t0, T, rfl, k0, m0, h⟩ := h
    obtain rfl : T = [] := h
    exact ⟨.lit _, means_one (meaning_string k0) means_empty⟩
  · -- 45
    obtain ⟨t0, T, rfl, k0, m0, h⟩ := h
    obtain rfl : T = [] := h
    exact ⟨t0, _, rfl, (show meaning O t0 = some (.type .int) by unfold meaning; rw [k0])⟩
  · -- 46
    obtain ⟨t0, T, rfl, k0, m0, h⟩ := h
    obtain rfl : T = [] := h
    exact ⟨t0, _, rfl, (show meaning O t0 = some (.type .float) by unfold meaning; rw [k0])⟩
  · -- 47
    obtain ⟨t0, T, rfl, k0, m0, h⟩ := h
    obtain rfl : T = [] := h
    exact ⟨t0, _, rfl, (show meaning O t0 = some (.type .str) by unfold meaning; rw [k0])⟩

theorem covers_forest (O : FloatOps F) (G : Forest (PT F W)) (T : List Tok) (hv : G.Valid) (hy : G.yield = T.map leafOf)
    (hm : ∀ t ∈ T, meaning O t ≠ none) : CoversAll O G.syms T := by
  induction G generalizing T with
  | nil =>
    obtain rfl : T = [] := by simpa [Forest.yield] using hy.symm
    rfl
  | tok k v rest ih =>
    rw [Forest.yield, eq_comm, List.map_eq_cons_iff] at hy
    obtain ⟨t, T, rfl, h1, h2⟩ := hy
    rw [leafOf, Prod.mk.injEq] at h1
    exact ⟨t, T, rfl, h1.1, hm t (by simp), ih T hv h2.symm fun t ht => hm t (by simp [ht])⟩
  | node r kids rest ih1 ih2 =>
    rw [Forest.yield, eq_comm, List.map_eq_append_iff] at hy
    obtain ⟨T1, T2, rfl, h1, h2⟩ := hy
    refine ⟨T1, T2, rfl, covers_rule O r T1 ?_, ih2 T2 hv.2.2 h2.symm fun t ht => hm t (by simp [ht])⟩
    rw [← hv.1]
    exact ih1 T1 hv.2.1 h1.symm fun t ht => hm t (by simp [ht])

/-- Grammatical tokens with readable literals are a sequence of statements. -/
theorem statements_of_derivation (O : FloatOps F) (G : Forest (PT F W)) (T : List Tok) (hG : G.Derives [.n .deck] (T.map leafOf))
    (hm : ∀ t ∈ T, meaning O t ≠ none) : ∃ parts P, parts ≠ [] ∧ T = parts.flatten ∧ List.Forall₂ (IsStatement O) parts P := by
  have := covers_forest O G T hG.valid hG.leaves hm
  rw [hG.roots] at this
  obtain ⟨T1, T2, rfl, h1, h2⟩ := this
  obtain rfl : T2 = [] := h2
  rw [List.append_nil]
  exact h1

theorem kind_of_no_meaning {O : FloatOps F} {t : Tok} (h : meaning O t = none) :
    t.kind = .includeKw ∨ t.kind = .pathIdentifier ∨ t.kind = .integer ∧ O.readInt (textOf t.text) = none ∨
      t.kind = .float ∧ O.readFloat (textOf t.text) = none := by
  obtain ⟨line, kind, text⟩ := t
  cases kind <;> simp_all [meaning]

theorem rule_of_literal : ∀ r : Fin 48,
    (Sym.t .integer ∈ rhs r → r = 42) ∧ (Sym.t .float ∈ rhs r → r = 43) ∧ (Sym.t .pathIdentifier ∈ rhs r → r = 40) := by
  decide +kernel

/-- If no action throws, all literals could be converted. -/
theorem meaning_of_eval (H : Host F W) (G : Forest (PT F W)) (T : List Tok) (hv : G.Valid) (hy : G.yield = T.map leafOf)
    (hk : ∀ t ∈ T, t.kind ≠ .includeKw) (D D' : DeckState F W) (vs : List (PT F W)) (he : G.eval (deckAct H) D = (some vs, D')) :
    ∀ t ∈ T, meaning H.ops t = none → Sym.t t.kind ∈ G.syms := by
  induction G generalizing T D D' vs with
  | nil =>
    obtain rfl : T = [] := by simpa [Forest.yield] using hy.symm
    simp
  | tok k v rest ih =>
    rw [Forest.yield, eq_comm, List.map_eq_cons_iff] at hy
    obtain ⟨t, T, rfl, h1, h2⟩ := hy
    rw [leafOf, Prod.mk.injEq] at h1
    rw [eval_tok] at he
    rcases hr : rest.eval (deckAct H) D with ⟨_ | ws, D2⟩
    · rw [hr] at he
      cases he
    · intro t' ht' hm
      rcases List.mem_cons.1 ht' with rfl | ht'
      · rw [h1.1]
        simp [Forest.syms]
      · exact List.mem_cons_of_mem _ (ih T hv h2.symm (fun t ht => hk t (by simp [ht])) D D2 ws hr t' ht' hm)
  | node r kids rest ih1 ih2 =>
    rw [Forest.yield, eq_comm, List.map_eq_append_iff] at hy
    obtain ⟨T1, T2, rfl, h1, h2⟩ := hy
    rw [eval_node, nodeEval_eq] at he
    rcases hr : kids.eval (deckAct H) D with ⟨_ | ws, D2⟩
    · rw [hr] at he
      cases he
    rw [hr, bindO_some] at he
    rcases ha : deckAct H r ws D2 with ⟨_ | v, D3⟩
    · rw [ha] at he
      cases he
    rw [ha, bindO_some] at he
    rcases hr2 : rest.eval (deckAct H) D3 with ⟨_ | us, D4⟩
    · rw [hr2] at he
      cases he
    intro t ht hm
    rcases List.mem_append.1 ht with ht | ht
    · have hs := ih1 T1 hv.2.1 h1.symm (fun t ht => hk t (by simp [ht])) D D2 ws hr t ht hm
      rw [hv.1] at hs
      exfalso
      have hsyms := hv.1
      obtain ⟨r1, r2, r3⟩ := rule_of_literal r
      have hone : ∀ k, rhs r = [.t k] → ws = [ParserToken.atom t] := by
        intro k hk1
        rw [hk1] at hsyms
        cases kids with
        | nil => cases hsyms
        | node => cases hsyms
        | tok k' v' rest' =>
          simp only [Forest.syms, List.cons.injEq] at hsyms
          cases rest' with
          | tok => exact absurd hsyms.2 (by simp [Forest.syms])
          | node => exact absurd hsyms.2 (by simp [Forest.syms])
          | nil =>
            simp only [Forest.yield] at h1
            rw [List.map_eq_cons_iff] at h1
            obtain ⟨t', T', rfl, h3, h4⟩ := h1
            obtain rfl : T' = [] := by simpa using h4
            obtain rfl : t = t' := by simpa using ht
            simp only [leafOf, Prod.mk.injEq] at h3
            rw [eval_tok, eval_nil] at hr
            cases hr
            rw [h3.2]
      rcases kind_of_no_meaning hm with h | h | ⟨h, h'⟩ | ⟨h, h'⟩
      · exact hk t (by simp [ht]) h
      · rw [h] at hs
        obtain rfl := r3 hs
        obtain rfl := hone .pathIdentifier rfl
        change (ParserToken.assignIdentifier H D2 (ParserToken.atom t), D2) = _ at ha
        simp [ParserToken.assignIdentifier, ParserToken.atom, h] at ha
      · rw [h] at hs
        obtain rfl := r1 hs
        obtain rfl := hone .integer rfl
        change (ParserToken.assignInteger H (ParserToken.atom t), D2) = _ at ha
        simp [ParserToken.assignInteger, ParserToken.atom, h, h'] at ha
      · rw [h] at hs
        obtain rfl := r2 hs
        obtain rfl := hone .float rfl
        change (ParserToken.assignFloat H (ParserToken.atom t), D2) = _ at ha
        simp [ParserToken.assignFloat, ParserToken.atom, h, h'] at ha
    · exact List.mem_cons_of_mem _ (ih2 T2 hv.2.2 h2.symm (fun t ht => hk t (by simp [ht])) D3 D4 us hr2 t ht hm)

/-- The scanner does not produce these. -/
theorem lex_kinds {s : List Scanner.Byte} {line : ℕ} {toks : List Tok} {e : Lexer.Ending} (h : Lexer.Lex s line toks e) :
    ∀ t ∈ toks, t.kind ≠ .includeKw ∧ t.kind ≠ .pathIdentifier := by
  induction h with
  | nil => simp
  | @token s line i n toks e _ hu _ ih =>
    intro t ht
    rcases List.mem_append.1 ht with ht | ht
    · have hp : ∀ u ∈ Lexer.patterns.map Prod.snd, ∀ w, ∀ t ∈ Lexer.emitted (line + Lexer.newlines (s.take n)) w u,
          t.kind ≠ .includeKw ∧ t.kind ≠ .pathIdentifier := by
        intro u hu w t ht
        simp only [Lexer.patterns, List.map_cons, List.map_nil, List.mem_cons, List.not_mem_nil, or_false] at hu
        rcases hu with rfl | rfl | rfl | rfl | rfl | rfl | rfl | rfl | rfl | rfl | rfl | rfl | rfl | rfl | rfl | rfl | rfl | rfl | rfl |
          rfl | rfl | rfl | rfl | rfl | rfl | rfl | rfl <;> simp [Lexer.emitted] at ht <;> subst ht <;> simp
      unfold Lexer.useOf at ht
      rcases hi : Lexer.patterns[i]? with _ | p
      · rw [hi] at ht
        simp [Lexer.emitted] at ht
      · rw [hi] at ht
        exact hp p.2 (List.mem_map_of_mem (List.mem_of_getElem? hi)) _ t ht
    · exact ih t ht
  | comment _ _ _ _ ih => exact ih
  | openComment => simp
  | openString => simp
  | bad => simp

/-- change the values -/
def mapForest {V V' : Type} (f : V → V') : Forest V → Forest V'
  | .nil => .nil
  | .tok k v rest => .tok k (f v) (mapForest f rest)
  | .node r kids rest => .node r (mapForest f kids) (mapForest f rest)

theorem mapForest_syms {V V' : Type} (f : V → V') (G : Forest V) : (mapForest f G).syms = G.syms := by
  induction G with
  | nil => rfl
  | tok k v rest ih => simp [mapForest, Forest.syms, ih]
  | node r kids rest _ ih => simp [mapForest, Forest.syms, ih]

theorem grammatical_map {V V' : Type} (f : V → V') {tokens : List (Kind × V)} (h : Grammatical tokens) :
    Grammatical (tokens.map fun t => (t.1, f t.2)) := by
  obtain ⟨G, hv, hr, hl⟩ := h
  refine ⟨mapForest f G, ?_, by rw [mapForest_syms, hr], ?_⟩
  · clear hl hr
    induction G with
    | nil => trivial
    | tok k v rest ih => exact ih hv
    | node r kids rest ih1 ih2 => exact ⟨by rw [mapForest_syms]; exact hv.1, ih1 hv.2.1, ih2 hv.2.2⟩
  · subst hl
    clear hv hr
    induction G with
    | nil => rfl
    | tok k v rest ih => simp [mapForest, Forest.yield, ih]
    | node r kids rest ih1 ih2 => simp [mapForest, Forest.yield, ih1, ih2]

end Schnek.Lemma.DeckText
