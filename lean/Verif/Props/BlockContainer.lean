import Verif.Model.BlockContainer
import Verif.Props.Blocks

/-!
# C110: containers of child blocks
-/

namespace Schnek.Props

open Schnek.Deck Schnek.Spec Schnek.Lemma.Deck Schnek.Lemma.Blocks Relation

variable {F W : Type}

theorem runCalls_eq (T : BlockTree) (K : ContainerTypes) (p : ℕ) (hp : K.container p = true) :
    ∀ (calls : List (Phase × ℕ)) (lists : ℕ → List ℕ), T.runCalls K calls lists p =
      lists p ++ ((calls.filter fun c => decide (c.1 = .preInit)).map Prod.snd).filter fun c => decide (T.parentOf c = some p) && K.child c
  | [], lists => by simp [BlockTree.runCalls]
  | (f, b) :: calls, lists => by
    have ih := runCalls_eq T K p hp calls
    unfold BlockTree.runCalls at ih ⊢
    rw [List.foldl_cons]
    by_cases hf : f = .preInit
    · subst hf
      rw [ih]
      simp only [if_true, decide_true, List.filter_cons_of_pos, List.map_cons]
      have e : T.preInitChild K lists b p = lists p ++ [b].filter fun c => decide (T.parentOf c = some p) && K.child c := by
        unfold BlockTree.preInitChild
        rcases hb : T.parentOf b with _ | q
        · simp [hb]
        · by_cases hq : q = p
          · subst hq
            cases hc : K.child b <;> simp [hb, hp, hc]
          · have : ¬ (T.parentOf b = some p) := by rw [hb]; simpa using hq
            rw [List.filter_cons_of_neg (by simp [this]), List.filter_nil, List.append_nil]
            show (if _ then _ else _ : ℕ → List ℕ) p = _
            split
            · rw [Function.update_of_ne (Ne.symm hq)]
            · rfl
      rw [e, List.append_assoc, ← List.filter_append]
      rfl
    · simp only [if_neg hf]
      rw [ih]
      simp [hf]

theorem preInit_calls (T : BlockTree) (b : ℕ) :
    ((T.calls b).filter fun c => decide (c.1 = Phase.preInit)).map Prod.snd = T.visit T.blocks.length b := by
  unfold BlockTree.calls
  simp [List.filter_map, Function.comp_def]

theorem sorted_ext {l l' : List ℕ} (h : l.Pairwise (· < ·)) (h' : l'.Pairwise (· < ·)) (he : ∀ x, x ∈ l ↔ x ∈ l') : l = l' :=
  List.Perm.eq_of_pairwise (fun _ _ _ _ h1 h2 => absurd h1 (by omega)) h h'
    ((List.perm_ext_iff_of_nodup (h.imp fun h => by omega) (h'.imp fun h => by omega)).mpr he)

/-- **C110** In every tree made from a file, while `initAll` runs for the block `b` and the next call is `phase` of the block `k`: a
container `p` in the tree lists exactly its children of the type it collects, in the order of the file and each once, as soon as
all blocks have had their `preInit`, that is during `init` and `postInit`. Before `preInit` it lists none of them; during `preInit` it lists
those that come before `k` in the file. -/
theorem C110_child_blocks (P : Program F W) (deck : List (Stmt F)) (b : ℕ) (hb : b < (P.after deck).tree.blocks.length)
    (K : ContainerTypes) (p : ℕ) (hp : K.container p = true) (hbp : Below (P.after deck).tree b p)
    (before after : List (Phase × ℕ)) (phase : Phase) (k : ℕ)
    (h : (P.after deck).tree.calls b = before ++ (phase, k) :: after) :
    let l := (P.after deck).tree.childBlocks K before p
    l.Pairwise (· < ·) ∧ ∀ c, c ∈ l ↔ ChildOf (P.after deck).tree p c ∧ K.child c = true ∧
      (phase = .init ∨ phase = .postInit ∨ (phase = .preInit ∧ c < k)) := by
  intro l
  obtain ⟨h1, h2⟩ := visit_spec (ok_after P deck) (P.after deck).tree.blocks.length b hb (by omega)
  obtain ⟨-, ho, hlt⟩ := C45_order P deck b hb
  have hpre := preInit_calls (P.after deck).tree b
  rw [h, List.filter_append, List.map_append] at hpre
  have hl : l = ((before.filter fun c => decide (c.1 = .preInit)).map Prod.snd).filter
      fun c => decide ((P.after deck).tree.parentOf c = some p) && K.child c := by
    show BlockTree.runCalls _ K before _ p = _
    rw [runCalls_eq _ K p hp]
    rfl
  rw [h] at ho
  rw [List.pairwise_append, List.pairwise_cons] at ho
  obtain ⟨ho1, ⟨ho2, ho3⟩, ho4⟩ := ho
  have hmem : ∀ f c, (f, c) ∈ before ∨ (f, c) = (phase, k) ∨ (f, c) ∈ after ↔ Below (P.after deck).tree b c := by
    intro f c
    rw [← (C45_order P deck b hb).1 f c, h]
    simp only [List.mem_append, List.mem_cons]
  refine ⟨?_, fun c => ?_⟩
  · rw [hl]
    refine List.Pairwise.filter _ ?_
    have := h2
    rw [← hpre] at this
    exact (List.pairwise_append.mp this).1
  · rw [hl, List.mem_filter, Bool.and_eq_true, decide_eq_true_eq, ← childOf_iff]
    simp only [List.mem_map, List.mem_filter, decide_eq_true_eq, Prod.exists, exists_eq_right, exists_eq_right']
    constructor
    · rintro ⟨hm, hc, hk⟩
      refine ⟨hc, hk, ?_⟩
      have := ho4 _ hm (phase, k) (by simp)
      cases phase
      · simp [rank] at this
      · simp [rank] at this
      · rcases this with h' | ⟨-, h'⟩
        · simp [rank] at h'
        · exact Or.inr (Or.inr ⟨rfl, h'⟩)
      · exact Or.inl rfl
      · exact Or.inr (Or.inl rfl)
    · rintro ⟨hc, hk, hph⟩
      refine ⟨?_, hc, hk⟩
      rcases (hmem .preInit c).mpr (hbp.tail hc) with h' | h' | h'
      · exact h'
      · rw [Prod.mk.injEq] at h'
        obtain ⟨h3, h4⟩ := h'
        rw [← h3, h4] at hph
        rcases hph with h' | h' | ⟨-, h'⟩
        · cases h'
        · cases h'
        · omega
      · have := ho2 _ h'
        rcases hph with rfl | rfl | ⟨rfl, hck⟩
        · simp [rank] at this
        · simp [rank] at this
        · rcases this with h'' | ⟨-, h''⟩
          · simp [rank] at h''
          · simp only at h''
            omega

/-- **C110** `addChild` is never called for a block that is no container of that type (it would be called with a null pointer). -/
theorem C110_no_container (T : BlockTree) (K : ContainerTypes) (calls : List (Phase × ℕ)) (p : ℕ) (hp : K.container p = false) :
    T.childBlocks K calls p = [] := by
  unfold BlockTree.childBlocks BlockTree.runCalls
  suffices H : ∀ lists : ℕ → List ℕ, lists p = [] →
      (calls.foldl (fun lists c => if c.1 = .preInit then T.preInitChild K lists c.2 else lists) lists) p = [] from H _ rfl
  induction calls with
  | nil => exact fun _ h => h
  | cons c calls ih =>
    intro lists h
    refine ih _ ?_
    show (if c.1 = .preInit then T.preInitChild K lists c.2 else lists) p = []
    by_cases hc : c.1 = .preInit
    · rw [if_pos hc]
      unfold BlockTree.preInitChild
      cases T.parentOf c.2 with
      | none => exact h
      | some q =>
        by_cases hq : (K.container q && K.child c.2) = true
        · have : p ≠ q := by
            rintro rfl
            rw [hp] at hq
            cases hq
          dsimp only
          rw [if_pos hq, Function.update_of_ne this, h]
        · dsimp only
          rw [if_neg hq, h]
    · rw [if_neg hc, h]

/-- **C110** If `initAll` is called a second time every child is listed twice. -/
theorem C110_second_call (P : Program F W) (deck : List (Stmt F)) (b : ℕ) (K : ContainerTypes) (p : ℕ) (hp : K.container p = true) :
    (P.after deck).tree.childBlocks K ((P.after deck).tree.calls b ++ (P.after deck).tree.calls b) p =
      (P.after deck).tree.childBlocks K ((P.after deck).tree.calls b) p ++ (P.after deck).tree.childBlocks K ((P.after deck).tree.calls b) p := by
  unfold BlockTree.childBlocks
  rw [runCalls_eq _ K p hp, runCalls_eq _ K p hp]
  simp

/-- non-vacuity: in the tree with the blocks `a`, `d` in `a`, and `c` the outermost block is a container and all others are children it
may collect. When `init` of the first block is called it has collected `a` and `c`, but not `d`; when `preInit` of `c` is called, only `a`. -/
example : let T := (exampleProgram.after blocksDeck).tree
    let K : ContainerTypes := ⟨fun p => p = 0, fun c => c ≠ 0⟩
    let calls := T.calls 0
    calls[11]? = some (.preInit, 3) ∧ calls[12]? = some (.init, 0) ∧ T.childBlocks K (calls.take 12) 0 = [1, 3] ∧
    T.childBlocks K (calls.take 11) 0 = [1] ∧ T.childBlocks K (calls.take 8) 0 = [] := by decide +kernel

end Schnek.Props
