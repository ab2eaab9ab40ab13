import Verif.Lemma.DeckOrder
import Verif.Spec.Blocks

namespace Schnek.Lemma.Blocks

open Schnek.Deck Schnek.Spec Schnek.Lemma.Deck Relation DeckState

variable {F W : Type}

/-- the tree is a tree, with its blocks in the order of the file -/
structure Ok (T : BlockTree) : Prop where
  lt : ∀ p c, ChildOf T p c → p < c
  child : ∀ p c, c ∈ T.childrenOf p ↔ ChildOf T p c
  sorted : ∀ p, (T.childrenOf p).Pairwise (· < ·)
  contig : ∀ i j k, i ≤ j → j ≤ k → Below T i k → Below T i j

theorem childOf_iff (T : BlockTree) (p c : ℕ) : ChildOf T p c ↔ T.parentOf c = some p := by
  unfold ChildOf BlockTree.parentOf
  simp only [Option.bind_eq_some_iff]

theorem childOf_lt {T : BlockTree} {p c : ℕ} (h : ChildOf T p c) : c < T.blocks.length := by
  obtain ⟨B, hB, -⟩ := h
  exact (List.getElem?_eq_some_iff.mp hB).1

theorem childOf_unique {T : BlockTree} {p q c : ℕ} (h : ChildOf T p c) (h' : ChildOf T q c) : p = q := by
  rw [childOf_iff] at h h'
  rw [h, Option.some.injEq] at h'
  exact h'

section

variable {T : BlockTree} (hT : ∀ p c, ChildOf T p c → p < c)
include hT

theorem below_le {a b : ℕ} (h : Below T a b) : a ≤ b := by
  induction h with
  | refl => exact le_rfl
  | tail _ hc ih => have := hT _ _ hc; omega

theorem below_antisymm {a b : ℕ} (h : Below T a b) (h' : Below T b a) : a = b :=
  le_antisymm (below_le hT h) (below_le hT h')

omit hT in
theorem below_chain {a b e : ℕ} (h : Below T a e) (h' : Below T b e) : Below T a b ∨ Below T b a := by
  induction h with
  | refl => exact Or.inr h'
  | @tail c e _ hc ih =>
    rcases ReflTransGen.cases_tail h' with rfl | ⟨d, hd, hde⟩
    · left
      exact ReflTransGen.tail ‹_› hc
    · rw [childOf_unique hde hc] at hd
      exact ih hd

theorem siblings_disjoint {b c d e : ℕ} (hc : ChildOf T b c) (hd : ChildOf T b d) (h : Below T c e) (h' : Below T d e) : c = d := by
  have key : ∀ c d, ChildOf T b c → ChildOf T b d → Below T c d → c = d := by
    intro c d hc hd h
    rcases ReflTransGen.cases_tail h with rfl | ⟨x, hx, hxd⟩
    · rfl
    · rw [childOf_unique hxd hd] at hx
      have h1 := below_le hT hx
      have h2 := hT _ _ hc
      omega
  rcases below_chain h h' with h | h
  · exact key c d hc hd h
  · exact (key d c hd hc h).symm

end

/-! ## trees of files -/

/-- `contig`, with what is needed to show it -/
structure Contig (T : BlockTree) : Prop where
  ordered : Ordered T
  contig : ∀ i j k, i ≤ j → j ≤ k → Below T i k → Below T i j
  opened : ∀ c, T.cursor = some c → ∀ i, Below T i c → ∀ j, i ≤ j → j < T.blocks.length → Below T i j

theorem ordered_lt {T : BlockTree} (h : Ordered T) (p c : ℕ) (hc : ChildOf T p c) : p < c := by
  obtain ⟨B, hB, hp⟩ := hc
  exact h.parent c B p hB hp

theorem below_lt {T : BlockTree} {a b : ℕ} (h : Below T a b) : a = b ∨ b < T.blocks.length := by
  rcases ReflTransGen.cases_tail h with e | ⟨c, -, hc⟩
  · exact Or.inl e.symm
  · exact Or.inr (childOf_lt hc)

theorem addChild_childOf (T : BlockTree) (B : Block) (p c : ℕ) :
    ChildOf (T.addChild B) p c ↔ ChildOf T p c ∨ (c = T.blocks.length ∧ T.cursor = some p) := by
  have hpar : ∀ c, (T.addChild B).parentOf c = if c = T.blocks.length then T.cursor else T.parentOf c := by
    intro c
    unfold BlockTree.parentOf BlockTree.addChild
    rcases hcur : T.cursor with _ | k
    · simp only [List.getElem?_append]
      by_cases h1 : c < T.blocks.length
      · rw [if_pos h1, if_neg (by omega)]
      · rw [if_neg h1]
        by_cases h2 : c = T.blocks.length
        · rw [if_pos h2, h2]; simp
        · rw [if_neg h2, List.getElem?_eq_none (show T.blocks.length ≤ c by omega), List.getElem?_eq_none (by simp; omega)]
    · simp only [List.getElem?_append, List.length_modify]
      by_cases h1 : c < T.blocks.length
      · rw [if_pos h1, if_neg (by omega), List.getElem?_modify]
        rcases T.blocks[c]? with _ | A
        · rfl
        · simp only [Option.map_eq_map, Option.map_some, Option.bind_some]
          split <;> rfl
      · rw [if_neg h1]
        by_cases h2 : c = T.blocks.length
        · rw [if_pos h2, h2]; simp
        · rw [if_neg h2, List.getElem?_eq_none (show T.blocks.length ≤ c by omega), List.getElem?_eq_none (by simp; omega)]
  rw [childOf_iff, hpar, childOf_iff]
  split_ifs with h
  · subst h
    constructor
    · intro h; exact Or.inr ⟨rfl, h⟩
    · rintro (h | h)
      · simp [BlockTree.parentOf] at h
      · exact h.2
  · simp [h]

theorem addChild_length (T : BlockTree) (B : Block) : (T.addChild B).blocks.length = T.blocks.length + 1 := by
  obtain ⟨l, h1, h2, -⟩ := addChild_blocks T B
  rw [h1]; simp [h2]

theorem addChild_below {T : BlockTree} (h : Ordered T) (B : Block) (i k : ℕ) :
    Below (T.addChild B) i k ↔ Below T i k ∨ (k = T.blocks.length ∧ ∃ c, T.cursor = some c ∧ Below T i c) := by
  constructor
  · intro hb
    induction hb with
    | refl => exact Or.inl .refl
    | @tail b c _ hc ih =>
      rw [addChild_childOf] at hc
      rcases ih with ih | ⟨rfl, -⟩
      · rcases hc with hc | ⟨rfl, hc⟩
        · exact Or.inl (ih.tail hc)
        · exact Or.inr ⟨rfl, b, hc, ih⟩
      · rcases hc with hc | ⟨rfl, hc⟩
        · have h1 := ordered_lt h _ _ hc
          have h2 := childOf_lt hc
          omega
        · have := h.cursor _ hc
          omega
  · have hmono : ∀ a b, Below T a b → Below (T.addChild B) a b :=
      fun a b hab => ReflTransGen.mono (fun x y hxy => (addChild_childOf T B x y).mpr (Or.inl hxy)) _ _ hab
    rintro (hb | ⟨rfl, c, hc, hb⟩)
    · exact hmono _ _ hb
    · exact (hmono _ _ hb).tail ((addChild_childOf T B _ _).mpr (Or.inr ⟨rfl, hc⟩))

theorem contig_addChild {T : BlockTree} (h : Contig T) (B : Block) : Contig (T.addChild B) := by
  have hlt : ∀ a b, Below T a b → a = b ∨ b < T.blocks.length := fun a b => below_lt
  refine ⟨ordered_addChild h.ordered B, ?_, ?_⟩
  · intro i j k hij hjk hb
    rw [addChild_below h.ordered] at hb ⊢
    rcases hb with hb | ⟨rfl, c, hc, hb⟩
    · exact Or.inl (h.contig i j k hij hjk hb)
    · by_cases hj : j = T.blocks.length
      · exact Or.inr ⟨hj, c, hc, hb⟩
      · exact Or.inl (h.opened c hc i hb j hij (by omega))
  · intro c hc i hb j hij hj
    simp only [BlockTree.addChild, Option.some.injEq] at hc
    subst hc
    rw [addChild_length] at hj
    rw [addChild_below h.ordered] at hb ⊢
    rcases hb with hb | ⟨-, c, hc, hb⟩
    · rcases hlt _ _ hb with rfl | h'
      · have : j = T.blocks.length := by omega
        subst this
        exact Or.inl .refl
      · omega
    · by_cases hjl : j = T.blocks.length
      · exact Or.inr ⟨hjl, c, hc, hb⟩
      · exact Or.inl (h.opened c hc i hb j hij (by omega))

theorem contig_moveUp {T : BlockTree} (h : Contig T) : Contig T.moveUp := by
  have ho := ordered_moveUp h.ordered
  unfold BlockTree.moveUp at ho ⊢
  rcases hd : T.depth with _ | ⟨_ | d, ds⟩
  · exact h
  · rw [hd] at ho
    refine ⟨ho, h.contig, ?_⟩
    intro c hc i hb j hij hj
    simp only [Option.bind_eq_some_iff] at hc
    obtain ⟨b, hb', B, hB, hp⟩ := hc
    exact h.opened b hb' i (ReflTransGen.tail hb ⟨B, hB, hp⟩) j hij hj
  · rw [hd] at ho
    exact ⟨ho, h.contig, h.opened⟩

theorem contig_empty : Contig BlockTree.empty := by
  have hno : ∀ p c, ¬ ChildOf BlockTree.empty p c := by
    rintro p c ⟨B, hB, -⟩
    simp [BlockTree.empty] at hB
  refine ⟨⟨fun i B p hB => by simp [BlockTree.empty] at hB, fun c hc => by simp [BlockTree.empty] at hc⟩, ?_,
    fun c hc => by simp [BlockTree.empty] at hc⟩
  intro i j k hij hjk hb
  rcases ReflTransGen.cases_tail hb with rfl | ⟨c, -, hc⟩
  · rw [le_antisymm hjk hij]; exact .refl
  · exact absurd hc (hno _ _)

theorem contig_after (P : Program F W) (deck : List (Stmt F)) : Contig (P.after deck).tree :=
  tree_after (Q := Contig) contig_empty (fun _ _ _ _ h => contig_addChild h _) (fun _ h => ⟨ordered_moveDown h.ordered, h.contig, h.opened⟩)
    (fun _ => contig_moveUp) P deck

theorem ok_after (P : Program F W) (deck : List (Stmt F)) : Ok (P.after deck).tree := by
  obtain ⟨m, hm⟩ := tinv_after P deck
  have hc := contig_after P deck
  generalize (P.after deck) = D at *
  have hch : ∀ p, D.tree.childrenOf p = if p < D.tree.blocks.length then
      (List.range D.tree.blocks.length).filter (fun j => decide (D.tree.blocks[j]?.bind Block.parent = some p)) else [] := by
    intro p
    unfold BlockTree.childrenOf
    split_ifs with h
    · rw [List.getElem?_eq_getElem h]
      exact hm.children p _ (List.getElem?_eq_getElem h)
    · rw [List.getElem?_eq_none (by omega)]; rfl
  refine ⟨ordered_lt hc.ordered, ?_, ?_, hc.contig⟩
  · intro p c
    rw [hch, childOf_iff]
    unfold BlockTree.parentOf
    split_ifs with h
    · simp only [List.mem_filter, List.mem_range, decide_eq_true_eq, and_iff_right_iff_imp]
      intro h'
      exact childOf_lt ((childOf_iff _ p c).mpr h')
    · simp only [List.not_mem_nil, false_iff]
      intro h'
      have hcp := (childOf_iff _ p c).mpr h'
      have h1 := ordered_lt hc.ordered _ _ hcp
      have h2 := childOf_lt hcp
      omega
  · intro p
    rw [hch]
    split_ifs
    · exact List.Pairwise.filter _ List.pairwise_lt_range
    · exact List.Pairwise.nil

end Schnek.Lemma.Blocks
