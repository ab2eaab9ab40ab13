import Verif.Lemma.DeckRun

namespace Schnek.Lemma.Deck

open Schnek.Deck Schnek.Spec Relation DeckState

variable {F W : Type}

/-- parents come before their children -/
structure Ordered (T : BlockTree) : Prop where
  parent : ∀ (i : ℕ) (B : Block) (p : ℕ), T.blocks[i]? = some B → B.parent = some p → p < i
  cursor : ∀ c, T.cursor = some c → c < T.blocks.length

theorem addChild_blocks (T : BlockTree) (B : Block) : ∃ l : List Block, (T.addChild B).blocks = l ++ [{ B with parent := T.cursor }] ∧
    l.length = T.blocks.length ∧ ∀ (i : ℕ) (A : Block), l[i]? = some A → ∃ A' : Block, T.blocks[i]? = some A' ∧ A.parent = A'.parent := by
  unfold BlockTree.addChild
  rcases T.cursor with _ | c
  · exact ⟨_, rfl, rfl, fun i A h => ⟨A, h, rfl⟩⟩
  · refine ⟨_, rfl, by simp, ?_⟩
    intro i A hA
    simp only [List.getElem?_modify] at hA
    rcases hA' : T.blocks[i]? with _ | A'
    · rw [hA'] at hA; simp at hA
    · rw [hA'] at hA
      have : A = _ := (Option.some.inj hA).symm
      exact ⟨A', rfl, by rw [this]; split <;> rfl⟩

theorem ordered_addChild {T : BlockTree} (h : Ordered T) (B : Block) : Ordered (T.addChild B) := by
  obtain ⟨l, h1, h2, h3⟩ := addChild_blocks T B
  constructor
  · intro i A p hA hp
    rw [h1, List.getElem?_append] at hA
    split at hA
    · obtain ⟨A', hA', hpar⟩ := h3 i A hA
      exact h.parent i A' p hA' (by rw [← hpar]; exact hp)
    · rw [List.getElem?_singleton] at hA
      split at hA
      · simp only [Option.some.injEq] at hA
        rw [← hA] at hp
        have := h.cursor p hp
        omega
      · simp at hA
  · intro c hc
    rw [h1]
    simp only [BlockTree.addChild, Option.some.injEq] at hc
    simp only [List.length_append, List.length_singleton]
    omega

theorem ordered_moveDown {T : BlockTree} (h : Ordered T) : Ordered T.moveDown := ⟨h.parent, h.cursor⟩

theorem ordered_moveUp {T : BlockTree} (h : Ordered T) : Ordered T.moveUp := by
  unfold BlockTree.moveUp
  split
  · exact h
  · refine ⟨h.parent, ?_⟩
    intro c hc
    simp only [Option.bind_eq_some_iff] at hc
    obtain ⟨b, hb, B, hB, hp⟩ := hc
    have h1 := h.cursor b hb
    have h2 := h.parent b B c hB hp
    show c < T.blocks.length
    omega
  · exact ⟨h.parent, h.cursor⟩

theorem params_tree (H : Host F W) (c : ℕ) (specs : List (ParamSpec F)) : ∀ s, (specs.foldl (addParameter H c) s).1.tree = s.1.tree := by
  induction specs with
  | nil => intro s; rfl
  | cons p ps ih => intro s; rw [List.foldl_cons, ih]; rfl

theorem tree_enterBlock {Q : BlockTree → Prop} (add : ∀ T n c l, Q T → Q (T.addChild ⟨n, c, none, [], l⟩)) (down : ∀ T : BlockTree, Q T → Q T.moveDown)
    (H : Host F W) {D : DeckState F W} (h : Q D.tree) (n c : String) : Q (enterBlock H D n c).tree := by
  have hc : (D.getClass c).2.tree = D.tree := by
    obtain ⟨l, h1, -⟩ := getClass_snd D c
    rw [h1]
  rcases hf : (D.getClass c).1.factory with _ | specs
  · rw [enterBlock_none H D n c hf]
    exact down _ (by simpa [hc] using h)
  · rw [enterBlock_some H D n c specs hf]
    apply add
    rw [params_tree]
    simpa [hc] using h

theorem tree_step {Q : BlockTree → Prop} (add : ∀ T n c l, Q T → Q (T.addChild ⟨n, c, none, [], l⟩)) (down : ∀ T : BlockTree, Q T → Q T.moveDown)
    (up : ∀ T : BlockTree, Q T → Q T.moveUp) (H : Host F W) {D : DeckState F W} (h : Q D.tree) (hinv : Vars.Inv D.store) (s : Stmt F) :
    Q (D.step H s).2.tree := by
  cases s with
  | decl t ds =>
    show Q (D.declare H t ds).2.tree
    rw [(same_declare H D t ds hinv).2.2.1]; exact h
  | assign n e =>
    show Q (D.update H n e).2.tree
    rw [(same_update H D n e).2.1]; exact h
  | start c n =>
    show Q (D.createBlock H c n).2.tree
    unfold DeckState.createBlock
    split
    · exact h
    · split
      · exact h
      · rename_i st _
        exact tree_enterBlock add down H (D := { D with store := st }) h n c
  | stop =>
    show Q D.endBlock.2.tree
    unfold endBlock
    split
    · exact h
    · exact up _ h

/-- what holds for the empty tree and is kept by the operations of `BlockTree` holds for the trees of files -/
theorem tree_after {Q : BlockTree → Prop} (h0 : Q BlockTree.empty) (add : ∀ T n c l, Q T → Q (T.addChild ⟨n, c, none, [], l⟩))
    (down : ∀ T : BlockTree, Q T → Q T.moveDown) (up : ∀ T : BlockTree, Q T → Q T.moveUp) (P : Program F W) (deck : List (Stmt F)) :
    Q (P.after deck).tree := by
  have hrun : ∀ (D : DeckState F W), Q D.tree → DInv D → Q (chain (step P.host) deck D).2.tree := by
    induction deck with
    | nil => intro D h _; exact h
    | cons s ss ih =>
      intro D h hinv
      rw [chain_cons]
      split
      · exact ih _ (tree_step add down up P.host h hinv.store s) (dinv_step P.host D s hinv)
      · exact tree_step add down up P.host h hinv.store s
  exact hrun P.begin (tree_enterBlock add down P.host h0 _ _) (dinv_after P [])

theorem ordered_after (P : Program F W) (deck : List (Stmt F)) : Ordered (P.after deck).tree :=
  tree_after (Q := Ordered) ⟨fun i B p hB => by simp [BlockTree.empty] at hB, fun c hc => by simp [BlockTree.empty] at hc⟩
    (fun _ _ _ _ h => ordered_addChild h _) (fun _ => ordered_moveDown) (fun _ => ordered_moveUp) P deck

end Schnek.Lemma.Deck
