import Verif.Lemma.BlockNesting
import Verif.Props.UnitTests

/-!
# Which blocks and closing braces are accepted (C158)
-/

namespace Schnek.Props

open Schnek.Deck Schnek.Deck.Grammar Schnek.Spec Schnek.Lemma.Deck Relation DeckState

variable {F W : Type}

/-- C158, except that the class need not be known (see below). The beginning of a block, `class name {`, is accepted, wherever it stands in a file, exactly if no block of this name lies in the
current block and, in a program with restricted blocks, the class is one of those the program allows in the class of the current block. -/
theorem C158_block_partial (P : Program F W) (deck : List (Stmt F)) (c n : String) :
    ((P.after deck).step P.host (.start c n)).1 = true ↔
      (∀ b, ¬ ChildNamed (P.after deck).store (P.after deck).store.cursor n b) ∧
      (P.restr = true → ∃ p, OfClass (P.after deck).store (P.after deck).store.cursor p ∧ Allows P.classes p c) := by
  have hB := binv_after P deck
  have hD := dinv_after P deck
  generalize P.after deck = D at hB hD ⊢
  have hcur := hD.store.cursor
  have hclass : (∃ p, OfClass D.store D.store.cursor p ∧ Allows P.classes p c) ↔ D.hasChild D.currentClass c = true := by
    rw [hB.allows]
    have hc : D.currentClass = D.store.blocks[D.store.cursor].className := by
      simp [currentClass, List.getElem?_eq_getElem hcur]
    constructor
    · rintro ⟨p, ⟨B, h1, h2⟩, h3⟩
      rw [List.getElem?_eq_getElem hcur, Option.some.injEq] at h1
      rw [hc, h1, h2]
      exact h3
    · intro h
      exact ⟨_, ⟨_, List.getElem?_eq_getElem hcur, rfl⟩, hc ▸ h⟩
  have hname : (∀ b, ¬ ChildNamed D.store D.store.cursor n b) ↔ D.store.createBlock n c ≠ none := by
    unfold Storage.createBlock
    rcases h : D.store.childOf D.store.cursor n with _ | b
    · simp only [Option.isSome_none, Bool.false_eq_true, if_false, ne_eq, reduceCtorEq, not_false_eq_true, iff_true]
      intro b hb
      rw [← Lemma.Vars.childOf_iff hD.store _ hcur, h] at hb
      cases hb
    · simp only [Option.isSome_some, if_true, ne_eq, not_true_eq_false, iff_false, not_forall, not_not]
      exact ⟨b, (Lemma.Vars.childOf_iff hD.store _ hcur n b).mp h⟩
  rw [hclass, hname, ← hB.restr]
  show (D.createBlock P.host c n).1 = true ↔ _
  unfold DeckState.createBlock
  rcases hr : D.restr <;> rcases hc : D.hasChild D.currentClass c <;> rcases hst : D.store.createBlock n c <;> simp

/-- C158. A closing brace is accepted exactly if there are more opening than closing braces before it. -/
theorem C158_closing (P : Program F W) (deck : List (Stmt F)) (h : P.Accepts deck) :
    ((P.after deck).step P.host .stop).1 = true ↔ closed deck < opened deck := by
  obtain ⟨h1, h2⟩ := level_after P deck h
  have := ((level_step P.host (P.after deck) .stop (dinv_after P deck).store _ h2).2.1 rfl).1
  rw [this]
  omega

/-- C158. In a program with restricted blocks, all blocks of a file lie where the program allows it, at any point of reading it. -/
theorem C158_nesting (P : Program F W) (hr : P.restr = true) (deck : List (Stmt F)) (p b : ℕ) (outer inner : String)
    (h : DirectlyIn (P.after deck).store p b) (ho : OfClass (P.after deck).store p outer) (hi : OfClass (P.after deck).store b inner) :
    Allows P.classes outer inner := by
  obtain ⟨B, h1, h2⟩ := h
  obtain ⟨A, h3, rfl⟩ := ho
  obtain ⟨B', h4, rfl⟩ := hi
  rw [h1, Option.some.injEq] at h4
  subst h4
  exact (binv_after P deck).nest hr b p B A h1 h2 h3

/-- C158. Blocks in the same block have different names, at any point of reading a file. -/
theorem C158_names (P : Program F W) (deck : List (Stmt F)) (p b c : ℕ) (n : String) (hb : ChildNamed (P.after deck).store p n b)
    (hc : ChildNamed (P.after deck).store p n c) : b = c := by
  have hi := (dinv_after P deck).store
  have hp : p < (P.after deck).store.blocks.length := by
    obtain ⟨B, h1, h2, -⟩ := hb
    have := hi.parent b p ⟨B, h1, h2⟩
    have := (List.getElem?_eq_some_iff.mp h1).1
    omega
  have h1 := (Lemma.Vars.childOf_iff hi p hp n b).mpr hb
  rw [(Lemma.Vars.childOf_iff hi p hp n c).mpr hc, Option.some.injEq] at h1
  exact h1.symm

/-- C158 is false: in a program without restricted blocks, a block of a class that the program does not know is accepted, as long as its
name is new. -/
theorem C158_violated_unknown_class (P : Program F W) (hr : P.restr = false) (deck : List (Stmt F)) (c n : String)
    (hn : ∀ b, ¬ ChildNamed (P.after deck).store (P.after deck).store.cursor n b) (_hc : P.classes.lookup c = none) :
    ((P.after deck).step P.host (.start c n)).1 = true :=
  (C158_block_partial P deck c n).mpr ⟨hn, by simp [hr]⟩

/-- the program of the library's test: a `Collection` and in it `Values` and `Constants` are accepted, `Values` in the root block, two
`Collection`s with the same name and a `Collection` in a `Collection` are not -/
example : testProgram.restr = true ∧
    testProgram.Accepts [.start "Collection" "a", .start "Values" "v", .stop, .start "Constants" "w", .stop, .stop, .start "Collection" "b"] ∧
    ¬ testProgram.Accepts [.start "Values" "a"] ∧
    ¬ testProgram.Accepts [.start "Collection" "a", .stop, .start "Collection" "a"] ∧
    ¬ testProgram.Accepts [.start "Collection" "a", .start "Collection" "b"] ∧ ¬ testProgram.Accepts [.start "Collection" "a", .stop, .stop] := by
  refine ⟨rfl, ?_, ?_, ?_, ?_, ?_⟩
  · show _ = true
    decide +kernel
  all_goals
    show ¬ (_ = true)
    decide +kernel

/-- a misspelt class: `exampleProgram` has blocks of class `A` -/
example : exampleProgram.restr = false ∧ exampleProgram.classes.lookup "AA" = none ∧ exampleProgram.Accepts [.start "AA" "a", .stop] := by
  refine ⟨rfl, rfl, ?_⟩
  show _ = true
  decide +kernel

end Schnek.Props
