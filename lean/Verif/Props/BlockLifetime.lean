import Verif.Lemma.BlockLifetime
import Verif.Props.FileDiagnostic

/-!
# C135: blocks live as long as the program uses them
-/

namespace Schnek.Props.BlockLifetime

open Schnek.Deck Schnek.Deck.Lifetime Schnek.Spec Schnek.Diagnostic Schnek.Lemma.BlockLifetime Schnek.Lemma.Diag Relation

/-- a state that a program can get into, if the files on the disk are `D` at the start -/
def Reach (D : Disk) (m : Mem) : Prop := ∃ ops, (Mem.start D).run ops = some m

/-- one of the blocks is the parent of the other -/
def Linked (m : Mem) (a b : ℕ) : Prop := ChildOf m.tree a b ∨ ChildOf m.tree b a

theorem inv_reach {D : Disk} {m : Mem} (h : Reach D m) : Inv m := by
  obtain ⟨ops, h⟩ := h
  exact inv_run (inv_start D) h

/-- C135: no block is destroyed while there is a pointer to it. -/
theorem C135_pointers {D : Disk} {m : Mem} (h : Reach D m) {b : ℕ} (hb : b ∈ m.pointers) : m.alive b = true := inv_pointers (inv_reach h) hb

/-- C135: all blocks that can be reached from a block the program has a pointer to, going to parents and to children, exist. -/
theorem C135_reachable {D : Disk} {m : Mem} (h : Reach D m) {a b : ℕ} (ha : a ∈ m.handles) (hab : ReflTransGen (Linked m) a b) :
    m.alive b = true := by
  have hI := inv_reach h
  rcases ReflTransGen.cases_tail hab with rfl | ⟨c, -, hc | hc⟩
  · exact hI.handle _ ha
  · exact (hI.child _ _ hc).2.2
  · exact (hI.child _ _ hc).2.1

/-- C135, for blocks with neither parent nor children, if the file was read without an exception (or the parser had no token on its stack then):
when nothing more can be destroyed and reading has ended, only those are left that the program has a pointer to. -/
theorem C135_no_leak_partial {D : Disk} {m : Mem} (h : Reach D m) (hr : m.reading = false) (hk : m.kept = false)
    (hd : ∀ b, m.step (.destroy b) = none) {b : ℕ} (hb : m.alive b = true) (hl : ∀ c, ¬ Linked m b c) : b ∈ m.handles := by
  have hI := inv_reach h
  have hc : m.useCount b ≠ 0 := by
    intro hc
    have := hd b
    rw [Mem.step, if_pos ⟨hb, hc⟩] at this
    cases this
  unfold Mem.useCount at hc
  have hm : b ∈ m.pointers := by
    by_contra hm
    exact hc (List.count_eq_zero.mpr hm)
  unfold Mem.pointers at hm
  rw [hr, hk] at hm
  simp only [List.mem_append] at hm
  rcases hm with (hm | hm) | hm
  · exact hm
  · simp at hm
  · obtain ⟨j, B, h1, -, h3⟩ := (mem_membersFrom _ _ _ _).mp hm
    rcases (mem_members h1).mp h3 with hx | hx
    · exact absurd (Or.inl hx) (hl j)
    · exact absurd (Or.inr (hI.parent _ _ hx)) (hl j)

/-- C135, for a file that makes one block, and this is a diagnostic that appends: when the program has given up its pointer, the diagnostic
is destroyed, and the file is complete. -/
theorem C135_output_partial (D : Disk) (B : Block) (d : Interval) (master : Bool) (rank : ℤ) (text0 : List Char) (steps : List (ℤ × List Char))
    (hi : d.interval ≠ 0) (ha : d.append = true) (hs : d.single = true → master = true) (h0 : ∀ p ∈ steps, p.1 ≠ 0) :
    ∃ calls, intervalCalls d master rank ((0, text0) :: steps) = some calls ∧ ∀ l, IsRunOf l calls →
      ∃ m, (Mem.start D).run ([.addChild B, .token, .free, .finish] ++ l.map (.act 0) ++ [.release 0, .destroy 0]) = some m ∧ m.alive 0 = false ∧
        m.disk = Function.update D d.fname (some (text0 ++ ((steps.filter fun p => Due d.interval p.1).map Prod.snd).flatten)) := by
  obtain ⟨calls, hc, key⟩ := C115_append_partial d master rank text0 steps hi ha hs h0 Stream.new D rfl
  refine ⟨calls, hc, fun l hl => ?_⟩
  have key := key l hl
  rw [run_append, run_append]
  have e1 : (Mem.start D).run [.addChild B, .token, .free, .finish] =
      some ⟨BlockTree.empty.addChild { B with children := [] }, false, false, [0], Function.update (fun _ => false) 0 true,
        Function.update (fun _ => Stream.new) 0 Stream.new, D⟩ := rfl
  rw [e1, Option.bind_some, run_acts 0 l _ rfl, Option.bind_some]
  refine ⟨_, rfl, rfl, ?_⟩
  simpa using key

/-- C135 is false for every block that has a parent or children: it is never destroyed, because parent and child have pointers to each other.
Whatever the program does, the two exist from the moment on in which the child was put into the tree, and for ever. -/
theorem C135_violated_never {D : Disk} {m m' : Mem} (h : Reach D m) (ops : List Op) (hm : m.run ops = some m') {a b : ℕ} (hab : Linked m a b) :
    m'.alive a = true ∧ m'.step (.destroy a) = none := by
  have hI := inv_run (inv_reach h) hm
  have key : a ∈ m'.pointers := by
    rcases hab with hab | hab
    · exact (not_destroyed hI (childOf_run hm hab)).1
    · exact (not_destroyed hI (childOf_run hm hab)).2
  refine ⟨inv_pointers hI key, ?_⟩
  rw [Mem.step, if_neg]
  rintro ⟨-, h0⟩
  exact useCount_zero h0 key

/-- C135 is false after a file has been rejected: `parse` throws without freeing the parser, the tokens on its stack keep the tree, and this its
root and the block it was in. Whatever the program does, these are never destroyed, also if they have neither parent nor children. -/
theorem C135_violated_rejected {D : Disk} {m m₁ m' : Mem} (h : Reach D m) (hk : m.kept = true) (h₁ : m.step .abandon = some m₁)
    (ops : List Op) (hm : m₁.run ops = some m') {b : ℕ} (hb : m.tree.root = some b ∨ m.tree.cursor = some b) :
    m'.alive b = true ∧ m'.step (.destroy b) = none := by
  have hI := inv_run (inv_step (inv_reach h) h₁) hm
  have e : m₁.reading = false ∧ m₁.kept = true ∧ m₁.tree = m.tree := by
    rw [Mem.step] at h₁
    split at h₁
    · rw [Option.some.injEq] at h₁; subst h₁; exact ⟨rfl, hk, rfl⟩
    · cases h₁
  obtain ⟨-, k2, k3⟩ := kept_run hm e.1 e.2.1
  rw [e.2.2] at k3
  have key : b ∈ m'.pointers := by
    unfold Mem.pointers
    rw [if_pos (by simp [k2]), k3]
    simp only [List.mem_append, Option.mem_toList, Option.mem_def]
    exact Or.inl (Or.inr hb)
  refine ⟨inv_pointers hI key, ?_⟩
  rw [Mem.step, if_neg]
  rintro ⟨-, h0⟩
  exact useCount_zero h0 key

/-- The blocks of every file are made in this way. C135 is false for every file (also one that is rejected after the first nested block): no
block that is inside of another one, or has one inside, is ever destroyed. -/
theorem C135_violated_file {F W : Type} (P : Program F W) (deck : List (Stmt F)) (D : Disk) :
    ∃ m, Reach D m ∧ m.tree = (P.after deck).tree ∧ m.reading = true ∧ ∀ ops m', m.run ops = some m' → ∀ p c, ChildOf (P.after deck).tree p c →
      m'.alive p = true ∧ m'.alive c = true := by
  have key : ∃ m, Reach D m ∧ m.tree = (P.after deck).tree ∧ m.reading = true := by
    refine Lemma.Deck.tree_after (Q := fun T => ∃ m, Reach D m ∧ m.tree = T ∧ m.reading = true) ⟨_, ⟨[], rfl⟩, rfl, rfl⟩ ?_ ?_ ?_ P deck
    · rintro T n c l ⟨m, ⟨ops, h⟩, rfl, hr⟩
      refine ⟨⟨m.tree.addChild ⟨n, c, none, [], l⟩, m.reading, m.kept, m.handles, Function.update m.alive m.tree.blocks.length true,
        Function.update m.stream m.tree.blocks.length .new, m.disk⟩, ⟨ops ++ [.addChild ⟨n, c, none, [], l⟩], ?_⟩, rfl, hr⟩
      rw [run_append, h, Option.bind_some, run_cons, Mem.step, if_pos hr]; rfl
    · rintro T ⟨m, ⟨ops, h⟩, rfl, hr⟩
      refine ⟨{ m with tree := m.tree.moveDown }, ⟨ops ++ [.moveDown], ?_⟩, rfl, hr⟩
      rw [run_append, h, Option.bind_some, run_cons, Mem.step, if_pos hr]; rfl
    · rintro T ⟨m, ⟨ops, h⟩, rfl, hr⟩
      refine ⟨{ m with tree := m.tree.moveUp }, ⟨ops ++ [.moveUp], ?_⟩, rfl, hr⟩
      rw [run_append, h, Option.bind_some, run_cons, Mem.step, if_pos hr]; rfl
  obtain ⟨m, h, ht, hr⟩ := key
  refine ⟨m, h, ht, hr, fun ops m' hm p c hc => ?_⟩
  rw [← ht] at hc
  exact ⟨(C135_violated_never h ops hm (Or.inl hc)).1, (C135_violated_never h ops hm (Or.inr hc)).1⟩

/-- C135 is false for the output of a diagnostic that appends and is inside of another block, as is usual: the program reads the file, executes
the diagnostic at any steps, and gives up its pointer. No block can be destroyed. What was written is still in the buffer of the stream if
that is large enough; the file is empty when the program ends. -/
theorem C135_violated_output (D : Disk) (A B : Block) (d : Interval) (master : Bool) (rank : ℤ) (text0 : List Char)
    (steps : List (ℤ × List Char)) (hi : d.interval ≠ 0) (ha : d.append = true) (hs : d.single = true → master = true)
    (h0 : ∀ p ∈ steps, p.1 ≠ 0) :
    ∃ calls, intervalCalls d master rank ((0, text0) :: steps) = some calls ∧ ∀ l, IsRunOf l calls → (∀ a ∈ l, a.flushed = 0) →
      ∃ m, (Mem.start D).run ([.addChild A, .token, .addChild B, .moveUp, .free, .finish] ++ l.map (.act 1) ++ [.release 0]) = some m ∧ m.handles = [] ∧
        (∀ b, m.step (.destroy b) = none) ∧ m.disk d.fname = some [] := by
  have e : intervalCalls d master rank ((0, text0) :: steps) = some ((.open d.fname, text0) ::
      (text0 :: (steps.filter fun p => Due d.interval p.1).map Prod.snd).map fun t => (.write, t)) := by
    rw [intervalCalls_cons, interval_execute d master rank 0 hi hs, interval_writes d master rank steps h0 hi ha hs]
    simp [ha, output, Due]
  refine ⟨_, e, fun l hl hf => ?_⟩
  obtain ⟨a, l1, rfl, hac, -, h1⟩ := isRunOf_cons hl
  have e1 : (Mem.start D).run [.addChild A, .token, .addChild B, .moveUp, .free, .finish] =
      some ⟨((BlockTree.empty.addChild { A with children := [] }).addChild { B with children := [] }).moveUp, false, false, [0],
        Function.update (Function.update (fun _ => false) 0 true) 1 true,
        Function.update (Function.update (fun _ => Stream.new) 0 Stream.new) 1 Stream.new, D⟩ := rfl
  have hrun : (Mem.start D).run ([.addChild A, .token, .addChild B, .moveUp, .free, .finish] ++ (a :: l1).map (.act 1) ++ [.release 0]) =
      some ⟨((BlockTree.empty.addChild { A with children := [] }).addChild { B with children := [] }).moveUp, false, false, [],
        Function.update (Function.update (fun _ => false) 0 true) 1 true,
        Function.update (Function.update (Function.update (fun _ => Stream.new) 0 Stream.new) 1 Stream.new) 1
          (runActions (a :: l1) Stream.new D).1, (runActions (a :: l1) Stream.new D).2⟩ := by
    rw [run_append, run_append, e1, Option.bind_some, run_acts 1 (a :: l1) _ rfl, Option.bind_some]
    rfl
  refine ⟨_, hrun, rfl, ?_, ?_⟩
  · intro b
    have hR := (⟨_, hrun⟩ : ∃ ops, (Mem.start D).run ops = some _)
    by_cases hb : b = 0 ∨ b = 1
    · refine (C135_violated_never (b := 1 - b) hR [] rfl ?_).2
      rcases hb with rfl | rfl
      · exact Or.inl ⟨_, rfl, rfl⟩
      · exact Or.inr ⟨_, rfl, rfl⟩
    · rw [Mem.step, if_neg]
      rintro ⟨hx, -⟩
      have := (inv_reach hR).bound b hx
      have e2 : (((BlockTree.empty.addChild { A with children := [] }).addChild { B with children := [] }).moveUp).blocks.length = 2 := rfl
      simp only [e2] at this
      omega
  · rw [runActions_cons]
    have r : a.run Stream.new D = Stream.new.openFile d.fname D := by unfold Action.run; rw [hac]
    rw [r]
    refine run_buffered d.fname l1 _ _ ?_ rfl (by simp [Stream.openFile, Stream.new])
    intro x hx
    refine ⟨?_, hf x (by simp [hx])⟩
    have hmem : (x.call, x.text) ∈ l1.map fun a => (a.call, a.text) := List.mem_map.mpr ⟨x, hx, rfl⟩
    unfold IsRunOf at h1
    rw [h1, List.mem_map] at hmem
    obtain ⟨t, -, ht⟩ := hmem
    exact (Prod.ext_iff.mp ht).1.symm

/-! ## examples -/

/-- a block without parameters -/
def plain (name : String) : Block := ⟨name, 0, none, [], []⟩

/-- a program that reads a file with two blocks, keeps a pointer to the inner one, and gives up the one to the root -/
def inner : Mem :=
  ((Mem.start fun _ => none).run [.addChild (plain "a"), .token, .addChild (plain "b"), .moveUp, .free, .finish, .hold 0, .hold 1, .release 0, .release 0]).get
    (by decide +kernel)

example : Reach (fun _ => none) inner := ⟨_, (Option.some_get _).symm⟩

example : inner.handles = [1] ∧ inner.alive 0 = true ∧ inner.useCount 0 = 1 ∧ inner.useCount 1 = 2 ∧ inner.reading = false := by
  decide +kernel

example : Linked inner 0 1 := Or.inl ⟨_, rfl, rfl⟩

/-- a program that reads a file with one block and gives up the pointer to it -/
example : ((Mem.start fun _ => none).run [.addChild (plain "a"), .token, .free, .finish, .release 0, .destroy 0]).isSome = true := by
  decide +kernel

/-- a file with one block that is rejected: the program has no pointer to the block, but it is not destroyed -/
example : ((Mem.start fun _ => none).run [.addChild (plain "a"), .token, .abandon]).map
    (fun m => (m.handles, m.alive 0, m.useCount 0, (m.step (.destroy 0)).isSome)) = some ([], true, 2, false) := by decide +kernel

/-- a file whose first block cannot be set up: nothing is left -/
example : ((Mem.start fun _ => none).run [.addChild (plain "a"), .abandon, .destroy 0]).isSome = true := by decide +kernel

/-- two blocks next to each other, when the class of the outermost block is not registered: the tree knows only the first, and the second is
destroyed while the file is read -/
example : ((Mem.start fun _ => none).run [.moveDown, .addChild (plain "a"), .moveUp, .addChild (plain "b"), .moveUp, .destroy 1]).isSome = true := by
  decide +kernel

/-- the diagnostic of `C135_violated_output` -/
example : (fileDiagnostic true "o").interval ≠ 0 ∧ (fileDiagnostic true "o").append = true ∧ (fileDiagnostic true "o").single = false := by
  decide +kernel

example : ((Mem.start fun _ => none).run ([.addChild (plain "a"), .token, .addChild (plain "b"), .moveUp, .free, .finish] ++
    (actionsOf 0 (intervalCalls (fileDiagnostic true "o") true 0 [(0, ['a']), (1, ['b']), (2, ['c'])])).map (.act 1) ++ [.release 0])).map
      (fun m => (m.disk ['o'], (m.stream 1).buffer)) = some (some [], ['a', 'c']) := by decide +kernel

end Schnek.Props.BlockLifetime
