import Verif.Model.BlockLifetime
import Verif.Lemma.Blocks
import Verif.Lemma.FileDiagnostic

namespace Schnek.Lemma.BlockLifetime

open Schnek.Deck Schnek.Deck.Lifetime Schnek.Spec Schnek.Diagnostic Schnek.Lemma.Blocks Schnek.Lemma.Diag

theorem childrenOf_addChild (T : BlockTree) (B : Block) (p : ℕ) :
    (T.addChild { B with children := [] }).childrenOf p =
      if p < T.blocks.length then T.childrenOf p ++ (if T.cursor = some p then [T.blocks.length] else []) else [] := by
  unfold BlockTree.childrenOf BlockTree.addChild
  rcases hcur : T.cursor with _ | k
  · simp only [List.getElem?_append]
    by_cases h1 : p < T.blocks.length
    · rw [if_pos h1, if_pos h1]; simp
    · rw [if_neg h1, if_neg h1]
      rcases Nat.eq_zero_or_pos (p - T.blocks.length) with h2 | h2
      · rw [h2]; rfl
      · rw [List.getElem?_eq_none (by simp only [List.length_singleton]; omega)]; rfl
  · simp only [List.getElem?_append, List.length_modify]
    by_cases h1 : p < T.blocks.length
    · rw [if_pos h1, if_pos h1, List.getElem?_modify]
      rw [List.getElem?_eq_getElem h1]
      by_cases h2 : k = p
      · subst h2; simp
      · simp [h2]
    · rw [if_neg h1, if_neg h1]
      rcases Nat.eq_zero_or_pos (p - T.blocks.length) with h2 | h2
      · rw [h2]; rfl
      · rw [List.getElem?_eq_none (by simp only [List.length_singleton]; omega)]; rfl

theorem mem_membersFrom (alive : ℕ → Bool) (b : ℕ) : ∀ (l : List Block) (i : ℕ),
    b ∈ Mem.membersFrom alive i l ↔ ∃ j B, l[j]? = some B ∧ alive (i + j) = true ∧ b ∈ Mem.members B
  | [], i => by simp [Mem.membersFrom]
  | A :: l, i => by
    rw [Mem.membersFrom, List.mem_append, mem_membersFrom alive b l (i + 1)]
    constructor
    · rintro (h | ⟨j, B, h1, h2, h3⟩)
      · by_cases ha : alive i = true
        · rw [if_pos ha] at h
          exact ⟨0, A, rfl, ha, h⟩
        · rw [if_neg ha] at h; cases h
      · exact ⟨j + 1, B, h1, by rw [← h2]; congr 1; omega, h3⟩
    · rintro ⟨j, B, h1, h2, h3⟩
      rcases j with _ | j
      · simp only [List.getElem?_cons_zero, Option.some.injEq] at h1
        subst h1
        left
        rw [if_pos (by simpa using h2)]
        exact h3
      · right
        exact ⟨j, B, by simpa using h1, by rw [← h2]; congr 1; omega, h3⟩

/-- what holds of every program -/
structure Inv (m : Mem) : Prop where
  child : ∀ p c, ChildOf m.tree p c → c ∈ m.tree.childrenOf p ∧ m.alive p = true ∧ m.alive c = true
  parent : ∀ p c, c ∈ m.tree.childrenOf p → ChildOf m.tree p c
  handle : ∀ b ∈ m.handles, m.alive b = true
  tree : (m.reading || m.kept) = true → ∀ b, (m.tree.root = some b ∨ m.tree.cursor = some b) → m.alive b = true
  bound : ∀ b, m.alive b = true → b < m.tree.blocks.length

theorem childrenOf_lt {T : BlockTree} {p c : ℕ} (h : c ∈ T.childrenOf p) : p < T.blocks.length := by
  by_contra hp
  unfold BlockTree.childrenOf at h
  rw [List.getElem?_eq_none (by omega)] at h
  cases h

theorem mem_members {T : BlockTree} {a b : ℕ} {B : Block} (h : T.blocks[a]? = some B) :
    b ∈ Mem.members B ↔ ChildOf T b a ∨ b ∈ T.childrenOf a := by
  unfold Mem.members ChildOf BlockTree.childrenOf
  rw [h]
  simp [Option.mem_toList]

theorem inv_members {m : Mem} (hI : Inv m) {a b : ℕ} {B : Block} (h : m.tree.blocks[a]? = some B) (hb : b ∈ Mem.members B) :
    m.alive b = true ∧ m.alive a = true := by
  rcases (mem_members h).mp hb with hc | hc
  · exact ⟨(hI.child _ _ hc).2.1, (hI.child _ _ hc).2.2⟩
  · have := hI.child _ _ (hI.parent _ _ hc)
    exact ⟨this.2.2, this.2.1⟩

theorem inv_pointers {m : Mem} (hI : Inv m) {b : ℕ} (h : b ∈ m.pointers) : m.alive b = true := by
  unfold Mem.pointers at h
  rw [List.mem_append, List.mem_append] at h
  rcases h with (h | h) | h
  · exact hI.handle b h
  · by_cases hr : (m.reading || m.kept) = true
    · rw [if_pos hr, List.mem_append, Option.mem_toList, Option.mem_toList] at h
      exact hI.tree hr b h
    · rw [if_neg hr] at h; cases h
  · obtain ⟨j, B, h1, -, h3⟩ := (mem_membersFrom _ _ _ _).mp h
    exact (inv_members hI h1 h3).1

theorem useCount_zero {m : Mem} {b : ℕ} (h : m.useCount b = 0) : b ∉ m.pointers := List.count_eq_zero.mp h

theorem member_pointer {m : Mem} {a b : ℕ} {B : Block} (h : m.tree.blocks[a]? = some B) (ha : m.alive a = true) (hb : b ∈ Mem.members B) :
    b ∈ m.pointers := by
  unfold Mem.pointers
  rw [List.mem_append]
  right
  exact (mem_membersFrom _ _ _ _).mpr ⟨a, B, h, by simpa using ha, hb⟩

/-- a block with a parent or a child cannot be destroyed -/
theorem not_destroyed {m : Mem} (hI : Inv m) {p c : ℕ} (h : ChildOf m.tree p c) : p ∈ m.pointers ∧ c ∈ m.pointers := by
  obtain ⟨h1, h2, h3⟩ := hI.child p c h
  obtain ⟨C, hC, hCp⟩ := id h
  have hp := hI.bound p h2
  refine ⟨member_pointer hC h3 ((mem_members hC).mpr (Or.inl h)), ?_⟩
  exact member_pointer (List.getElem?_eq_getElem hp) h2 ((mem_members (List.getElem?_eq_getElem hp)).mpr (Or.inr h1))

theorem inv_start (D : Disk) : Inv (Mem.start D) := by
  refine ⟨?_, ?_, ?_, ?_, ?_⟩
  · rintro p c ⟨B, h, -⟩; simp [Mem.start, BlockTree.empty] at h
  · intro p c h; have := childrenOf_lt h; simp [Mem.start, BlockTree.empty] at this
  · intro b h; cases h
  · rintro - b (h | h) <;> cases h
  · intro b h; cases h

theorem inv_step {m m' : Mem} {op : Op} (hI : Inv m) (h : m.step op = some m') : Inv m' := by
  cases op with
  | addChild B =>
    by_cases hr : m.reading = true
    · rw [Mem.step, if_pos hr, Option.some.injEq] at h
      subst h
      have old : ∀ b, m.alive b = true → Function.update m.alive m.tree.blocks.length true b = true := by
        intro b hb
        by_cases e : b = m.tree.blocks.length
        · rw [e, Function.update_self]
        · rw [Function.update_of_ne e]; exact hb
      refine ⟨?_, ?_, ?_, ?_, ?_⟩
      · intro p c hc
        simp only [childrenOf_addChild]
        rcases (addChild_childOf _ _ _ _).mp hc with hc | ⟨rfl, hcur⟩
        · obtain ⟨h1, h2, h3⟩ := hI.child p c hc
          rw [if_pos (hI.bound p h2)]
          exact ⟨List.mem_append_left _ h1, old _ h2, old _ h3⟩
        · have hp := hI.tree (by simp [hr]) p (Or.inr hcur)
          rw [if_pos (hI.bound p hp), if_pos hcur]
          exact ⟨by simp, old _ hp, Function.update_self ..⟩
      · intro p c hc
        simp only [childrenOf_addChild] at hc
        refine (addChild_childOf _ _ _ _).mpr ?_
        by_cases hp : p < m.tree.blocks.length
        · rw [if_pos hp, List.mem_append] at hc
          rcases hc with hc | hc
          · exact Or.inl (hI.parent p c hc)
          · by_cases e : m.tree.cursor = some p
            · rw [if_pos e, List.mem_singleton] at hc
              exact Or.inr ⟨hc, e⟩
            · rw [if_neg e] at hc; cases hc
        · rw [if_neg hp] at hc; cases hc
      · intro b hb; exact old b (hI.handle b hb)
      · rintro - b (hb | hb)
        · simp only [BlockTree.addChild] at hb
          rcases e : m.tree.root with _ | r
          · rw [e] at hb
            simp only [Option.some.injEq] at hb
            rw [← hb]; exact Function.update_self ..
          · rw [e] at hb
            simp only [Option.some.injEq] at hb
            subst hb
            exact old _ (hI.tree (by simp [hr]) r (Or.inl e))
        · simp only [BlockTree.addChild, Option.some.injEq] at hb
          rw [← hb]; exact Function.update_self ..
      · intro b hb
        simp only [addChild_length]
        by_cases e : b = m.tree.blocks.length
        · omega
        · simp only [Function.update_of_ne e] at hb
          have := hI.bound b hb
          omega
    · rw [Mem.step, if_neg hr] at h; cases h
  | moveDown =>
    by_cases hr : m.reading = true
    · rw [Mem.step, if_pos hr, Option.some.injEq] at h
      subst h
      exact ⟨hI.child, hI.parent, hI.handle, hI.tree, hI.bound⟩
    · rw [Mem.step, if_neg hr] at h; cases h
  | moveUp =>
    by_cases hr : m.reading = true
    · rw [Mem.step, if_pos hr, Option.some.injEq] at h
      subst h
      have hb : m.tree.moveUp.blocks = m.tree.blocks := by unfold BlockTree.moveUp; split <;> rfl
      have hrt : m.tree.moveUp.root = m.tree.root := by unfold BlockTree.moveUp; split <;> rfl
      have hch : ∀ p c, ChildOf m.tree.moveUp p c ↔ ChildOf m.tree p c := by intro p c; unfold ChildOf; rw [hb]
      have hco : ∀ p, m.tree.moveUp.childrenOf p = m.tree.childrenOf p := by intro p; unfold BlockTree.childrenOf; rw [hb]
      refine ⟨?_, ?_, hI.handle, ?_, ?_⟩
      · intro p c hc; simp only [hco]; exact hI.child p c ((hch p c).mp hc)
      · intro p c hc; simp only [hco] at hc; exact (hch p c).mpr (hI.parent p c hc)
      · rintro - b (h | h)
        · simp only [hrt] at h; exact hI.tree (by simp [hr]) b (Or.inl h)
        · simp only [BlockTree.moveUp] at h
          split at h
          · exact hI.tree (by simp [hr]) b (Or.inr h)
          · simp only [Option.bind_eq_some_iff] at h
            obtain ⟨c, -, C, hC, hp⟩ := h
            exact (hI.child b c ⟨C, hC, hp⟩).2.1
          · exact hI.tree (by simp [hr]) b (Or.inr h)
      · intro b h; simp only [hb]; exact hI.bound b h
    · rw [Mem.step, if_neg hr] at h; cases h
  | token =>
    by_cases hr : m.reading = true
    · rw [Mem.step, if_pos hr, Option.some.injEq] at h
      subst h
      exact ⟨hI.child, hI.parent, hI.handle, fun _ => hI.tree (by simp [hr]), hI.bound⟩
    · rw [Mem.step, if_neg hr] at h; cases h
  | free =>
    by_cases hr : m.reading = true
    · rw [Mem.step, if_pos hr, Option.some.injEq] at h
      subst h
      exact ⟨hI.child, hI.parent, hI.handle, fun _ => hI.tree (by simp [hr]), hI.bound⟩
    · rw [Mem.step, if_neg hr] at h; cases h
  | finish =>
    by_cases hr' : (m.reading && !m.kept) = true
    · rw [Mem.step, if_pos hr', Option.some.injEq] at h
      subst h
      simp only [Bool.and_eq_true, Bool.not_eq_true'] at hr'
      obtain ⟨hr, hk⟩ := hr'
      refine ⟨hI.child, hI.parent, ?_, fun h => by simp [hk] at h, hI.bound⟩
      intro b hb
      rcases List.mem_append.mp hb with hb | hb
      · exact hI.tree (by simp [hr]) b (Or.inl (Option.mem_toList.mp hb))
      · exact hI.handle b hb
    · rw [Mem.step, if_neg hr'] at h; cases h
  | abandon =>
    by_cases hr : m.reading = true
    · rw [Mem.step, if_pos hr, Option.some.injEq] at h
      subst h
      exact ⟨hI.child, hI.parent, hI.handle, fun _ => hI.tree (by simp [hr]), hI.bound⟩
    · rw [Mem.step, if_neg hr] at h; cases h
  | hold b =>
    rw [Mem.step] at h
    split at h
    · rename_i hb
      rw [Option.some.injEq] at h
      subst h
      refine ⟨hI.child, hI.parent, ?_, hI.tree, hI.bound⟩
      intro x hx
      rcases List.mem_cons.mp hx with rfl | hx
      · rcases hb with hb | hb
        · exact hI.handle x hb
        · obtain ⟨a, -, hm⟩ := List.mem_flatMap.mp hb
          rcases e : m.tree.blocks[a]? with _ | B
          · rw [e] at hm; cases hm
          · rw [e] at hm
            exact (inv_members hI e hm).1
      · exact hI.handle x hx
    · cases h
  | release b =>
    rw [Mem.step] at h
    split at h
    · rw [Option.some.injEq] at h
      subst h
      exact ⟨hI.child, hI.parent, fun x hx => hI.handle x (List.mem_of_mem_erase hx), hI.tree, hI.bound⟩
    · cases h
  | act b a =>
    rw [Mem.step] at h
    split at h
    · simp only [Option.some.injEq] at h
      subst h
      exact ⟨hI.child, hI.parent, hI.handle, hI.tree, hI.bound⟩
    · cases h
  | destroy b =>
    rw [Mem.step] at h
    split at h
    · rename_i hb
      rw [Option.some.injEq] at h
      subst h
      have keep : ∀ x, x ∈ m.pointers → Function.update m.alive b false x = m.alive x := by
        intro x hx
        refine Function.update_of_ne ?_ ..
        rintro rfl
        exact useCount_zero hb.2 hx
      refine ⟨?_, hI.parent, ?_, ?_, ?_⟩
      · intro p c hc
        obtain ⟨hp, hc'⟩ := not_destroyed hI hc
        simp only [keep p hp, keep c hc']
        exact hI.child p c hc
      · intro x hx
        simp only [keep x (by unfold Mem.pointers; simp [hx])]
        exact hI.handle x hx
      · intro hr x hx
        have hr' : (m.reading || m.kept) = true := hr
        have hx' : m.tree.root = some x ∨ m.tree.cursor = some x := hx
        have hm : x ∈ m.pointers := by
          unfold Mem.pointers
          rw [if_pos hr']
          simp only [List.mem_append, Option.mem_toList, Option.mem_def]
          exact Or.inl (Or.inr hx')
        exact (keep x hm).trans (hI.tree hr' x hx')
      · intro x hx
        by_cases e : x = b
        · subst e; simp at hx
        · simp only [Function.update_of_ne e] at hx
          exact hI.bound x hx
    · cases h

theorem run_cons (m : Mem) (op : Op) (ops : List Op) : m.run (op :: ops) = (m.step op).bind (·.run ops) := rfl

theorem run_append (a b : List Op) : ∀ m : Mem, m.run (a ++ b) = (m.run a).bind (·.run b) := by
  intro m
  unfold Mem.run
  rw [List.foldlM_append]
  rfl

theorem inv_run {m m' : Mem} {ops : List Op} (hI : Inv m) (h : m.run ops = some m') : Inv m' := by
  induction ops generalizing m with
  | nil =>
    have : m = m' := by simpa [Mem.run] using h
    exact this ▸ hI
  | cons op ops ih =>
    rw [run_cons, Option.bind_eq_some_iff] at h
    obtain ⟨m1, h1, h2⟩ := h
    exact ih (inv_step hI h1) h2

/-- a parser that has not been freed keeps the tree -/
theorem kept_step {m m' : Mem} {op : Op} (h : m.step op = some m') (hr : m.reading = false) (hk : m.kept = true) :
    m'.reading = false ∧ m'.kept = true ∧ m'.tree = m.tree := by
  cases op <;> simp only [Mem.step, hr, Bool.false_eq_true, if_false, Bool.false_and, reduceCtorEq] at h <;> split at h <;>
    simp only [Option.some.injEq, reduceCtorEq] at h <;> subst h <;> exact ⟨rfl, hk, rfl⟩

theorem kept_run {m m' : Mem} {ops : List Op} (h : m.run ops = some m') (hr : m.reading = false) (hk : m.kept = true) :
    m'.reading = false ∧ m'.kept = true ∧ m'.tree = m.tree := by
  induction ops generalizing m with
  | nil =>
    have : m = m' := by simpa [Mem.run] using h
    exact this ▸ ⟨hr, hk, rfl⟩
  | cons op ops ih =>
    rw [run_cons, Option.bind_eq_some_iff] at h
    obtain ⟨m1, h1, h2⟩ := h
    obtain ⟨a, b, c⟩ := kept_step h1 hr hk
    obtain ⟨a', b', c'⟩ := ih h2 a b
    exact ⟨a', b', c'.trans c⟩

/-- children stay children -/
theorem childOf_step {m m' : Mem} {op : Op} (h : m.step op = some m') {p c : ℕ} (hc : ChildOf m.tree p c) : ChildOf m'.tree p c := by
  cases op <;> rw [Mem.step] at h <;> split at h <;> simp only [Option.some.injEq, reduceCtorEq] at h <;> subst h
  case addChild.isTrue => exact (addChild_childOf _ _ _ _).mpr (Or.inl hc)
  case moveUp.isTrue =>
    have hb : m.tree.moveUp.blocks = m.tree.blocks := by unfold BlockTree.moveUp; split <;> rfl
    unfold ChildOf at hc ⊢
    simp only [hb]
    exact hc
  all_goals exact hc

theorem childOf_run {m m' : Mem} {ops : List Op} (h : m.run ops = some m') {p c : ℕ} (hc : ChildOf m.tree p c) : ChildOf m'.tree p c := by
  induction ops generalizing m with
  | nil =>
    have : m = m' := by simpa [Mem.run] using h
    exact this ▸ hc
  | cons op ops ih =>
    rw [run_cons, Option.bind_eq_some_iff] at h
    obtain ⟨m1, h1, h2⟩ := h
    exact ih h2 (childOf_step h1 hc)

/-- the calls of a diagnostic -/
theorem run_acts (b : ℕ) : ∀ (l : List Action) (m : Mem), m.alive b = true → m.run (l.map (.act b)) =
    some { m with
      stream := Function.update m.stream b (runActions l (m.stream b) m.disk).1
      disk := (runActions l (m.stream b) m.disk).2 }
  | [], m, _ => by simp [Mem.run, runActions]
  | a :: l, m, h => by
    rw [List.map_cons, run_cons, Mem.step, if_pos h]
    simp only [Option.bind_some]
    refine (run_acts b l _ (by exact h)).trans ?_
    simp [runActions_cons]

/-- a stream whose buffer is large enough leaves nothing in the file before it is closed -/
theorem run_buffered (f : List Char) : ∀ (l : List Action) (s : Stream) (D : Disk), (∀ a ∈ l, a.call = .write ∧ a.flushed = 0) →
    s.file = some f → D f = some [] → (runActions l s D).2 f = some []
  | [], _, _, _, _, h => h
  | a :: l, s, D, ha, hf, h => by
    rw [runActions_cons]
    obtain ⟨h1, h2⟩ := ha a (by simp)
    have key : (a.run s D).1.file = some f ∧ (a.run s D).2 f = some [] := by
      unfold Action.run
      rw [h1]
      simp only [Stream.write, h2, hf]
      by_cases e : s.fail = true
      · rw [if_pos e]; exact ⟨hf, h⟩
      · rw [if_neg e]
        simp [Stream.flush, h, overwrite, hf]
    exact run_buffered f l _ _ (fun x hx => ha x (by simp [hx])) key.1 key.2

end Schnek.Lemma.BlockLifetime
