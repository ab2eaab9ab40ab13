import Verif.Lemma.DeckSeq
import Verif.Lemma.DeckOrder
import Verif.Props.Variables

/-!
# Reading a setup file (C41 - C43, C59 - C61, C63, C64)
-/

namespace Schnek.Props

open Schnek.Deck Schnek.Deck.Grammar Schnek.Spec Schnek.Lemma.Deck Relation DeckState

variable {F W : Type}

theorem after_append (P : Program F W) (deck rest : List (Stmt F)) (h : P.Accepts deck) :
    P.after (deck ++ rest) = ((P.after deck).run P.host rest).2 := by
  unfold Program.after DeckState.run
  rw [chain_append]
  have : (chain (step P.host) deck P.begin).1 = true := h
  rw [if_pos this]

theorem accepts_append (P : Program F W) (deck rest : List (Stmt F)) :
    P.Accepts (deck ++ rest) ↔ P.Accepts deck ∧ ((P.after deck).run P.host rest).1 = true := by
  unfold Program.Accepts Program.after DeckState.run
  rw [chain_append]
  by_cases h : (chain (step P.host) deck P.begin).1 = true
  · rw [if_pos h]; exact ⟨fun h' => ⟨h, h'⟩, fun h' => h'.2⟩
  · rw [if_neg h]; exact ⟨fun h' => absurd h' h, fun h' => absurd h'.1 h⟩

theorem run_one (D : DeckState F W) (H : Host F W) (s : Stmt F) : D.run H [s] = D.step H s := by
  unfold DeckState.run
  rw [chain_cons]
  split
  · rename_i h
    show (true, (D.step H s).2) = D.step H s
    rw [← h]
  · rfl

/-! ## assignments -/

/-- C41: whatever statements follow, a variable keeps its type, and a read-only variable stays what it is. -/
theorem C41_kept (P : Program F W) (deck rest : List (Stmt F)) (v : ℕ) (x : Variable F W) (hx : (P.after deck).heap[v]? = some x) :
    ∃ x', (P.after (deck ++ rest)).heap[v]? = some x' ∧ x'.ty = x.ty ∧ x'.readOnly = x.readOnly ∧ (x.readOnly = true → x' = x) := by
  by_cases h : P.Accepts deck
  · rw [after_append P deck rest h]
    exact run_keeps P.host _ rest v x hx
  · have : P.after (deck ++ rest) = P.after deck := by
      unfold Program.after DeckState.run
      rw [chain_append, if_neg (show ¬ (chain (step P.host) deck P.begin).1 = true from h)]
    rw [this]
    exact ⟨x, hx, rfl, rfl, fun _ => rfl⟩

/-- C41: at any time the value of a constant variable, and the definition of any other, is of the variable's type. -/
theorem C41_typed (P : Program F W) (deck : List (Stmt F)) (v : ℕ) (x : Variable F W) (hx : (P.after deck).heap[v]? = some x) :
    (x.fixed = true → x.value.ty = x.ty) ∧ (x.fixed = false → ∃ e, x.expression = some e ∧ e.ty = x.ty) :=
  (dinv_after P deck).typed v x hx

/-- C41: a rejected assignment changes no variable. -/
theorem C41_rejected (H : Host F W) (D : DeckState F W) (n : String) (e : Grammar.Expression F)
    (h : (D.step H (.assign n e)).1 = false) : (D.step H (.assign n e)).2.heap = D.heap ∧
      (D.step H (.assign n e)).2.store = D.store ∧ (D.step H (.assign n e)).2.tree = D.tree ∧ (D.step H (.assign n e)).2.ext = D.ext := by
  obtain ⟨k, -, hk⟩ := update_false (show (D.update H n e).1 = false from h)
  show (D.update H n e).2.heap = _ ∧ (D.update H n e).2.store = _ ∧ (D.update H n e).2.tree = _ ∧ (D.update H n e).2.ext = _
  rw [hk]
  exact ⟨rfl, rfl, rfl, rfl⟩

/-- C41: assigning to a read-only variable is rejected. -/
theorem C41_read_only (P : Program F W) (deck : List (Stmt F)) (n : String) (path : List String) (hw : Written ':' path n)
    (e : Grammar.Expression F) (v : ℕ) (x : Variable F W) (hv : Resolves (P.after deck).store (P.after deck).store.cursor path v)
    (hx : (P.after deck).heap[v]? = some x) (hr : x.readOnly = true) :
    ((P.after deck).step P.host (.assign n e)).1 = false := by
  have hi := dinv_after P deck
  rcases hb : ((P.after deck).step P.host (.assign n e)).1 with _ | _
  · rfl
  · obtain ⟨e', v', x', y, z, -, h2, h3, -, h5, -⟩ := update_true (show ((P.after deck).update P.host n e).1 = true from hb)
    rw [(Lemma.Vars.getVariable_iff hi.store _ hi.store.cursor path n hw v).mpr hv, Option.some.injEq] at h2
    rw [← h2, hx, Option.some.injEq] at h3
    have := (assign_spec h5).1
    rw [← h3, hr] at this
    simp at this

/-- C41: an accepted assignment changes the variable the name means and no other. The variable is not read-only, and afterwards it
holds the value of the expression, converted to its type, or the expression itself if that is not constant. -/
theorem C41_accepted (P : Program F W) (deck : List (Stmt F)) (n : String) (path : List String) (hw : Written ':' path n)
    (g : Grammar.Expression F) (hok : ((P.after deck).step P.host (.assign n g)).1 = true) :
    ∃ v e x x', Resolves (P.after deck).store (P.after deck).store.cursor path v ∧ g.build ((P.after deck).env P.host) = some e ∧
      (P.after deck).heap[v]? = some x ∧ x.readOnly = false ∧
      ((P.after deck).step P.host (.assign n g)).2.heap[v]? = some x' ∧ x'.ty = x.ty ∧ x'.initialised = true ∧
      (∀ w, w ≠ v → ((P.after deck).step P.host (.assign n g)).2.heap[w]? = (P.after deck).heap[w]?) ∧
      (e.isConstant (P.after deck).state = true → x'.fixed = true ∧
        ∃ val, e.eval P.host.ops (P.after deck).state = some val ∧ convert P.host.ops x.ty val = some x'.value) ∧
      (e.isConstant (P.after deck).state = false → x'.fixed = false ∧
        x'.expression = some (if e.ty = x.ty then e else .cast x.ty e)) := by
  have hi := dinv_after P deck
  have hwd := (Lemma.Vars.getVariable_iff hi.store _ hi.store.cursor path n hw)
  generalize P.after deck = D at *
  obtain ⟨e, v, x, y, x', h1, h2, h3, h4, h5, h6⟩ := update_true (show (D.update P.host n g).1 = true from hok)
  have hlhs : lhsType x = x.ty := by
    unfold lhsType
    obtain ⟨t1, t2⟩ := hi.typed v x h3
    by_cases hf : x.fixed = true
    · rw [if_pos hf, t1 hf]
    · rw [if_neg hf]
      obtain ⟨e', he', hty⟩ := t2 (by simpa using hf)
      rw [he']; exact hty
  rw [hlhs] at h4
  obtain ⟨a1, a2, a3, a4, a5, a6, a7, a8, -⟩ := assign_spec h5
  obtain ⟨-, -, -, -, b5⟩ := evaluate_typed h4
  obtain ⟨c1, c2⟩ := evaluate_spec h4
  have hconst : (promoteAssign x.ty e).isConstant D.state = e.isConstant D.state := by
    unfold promoteAssign; split <;> rfl
  refine ⟨v, e, x, x', (hwd v).mp h2, h1, h3, a1, ?_, a3, by rw [a8, b5], ?_, ?_, ?_⟩
  · show (D.update P.host n g).2.heap[v]? = some x'
    rw [h6]
    show (D.heap.set v x')[v]? = some x'
    rw [List.getElem?_set_self (List.getElem?_eq_some_iff.mp h3).1]
  · intro w hwv
    show (D.update P.host n g).2.heap[w]? = _
    rw [h6]
    show (D.heap.set v x')[w]? = _
    rw [List.getElem?_set_ne (fun h => hwv h.symm)]
  · intro hc
    rw [← hconst] at hc
    obtain ⟨d1, d2⟩ := c1 hc
    refine ⟨by rw [a7, d1], ?_⟩
    unfold promoteAssign at d2
    split at d2
    · rename_i ht
      refine ⟨y.value, d2, ?_⟩
      have : y.value.ty = x.ty := by rw [eval_ty _ _ _ _ d2, ht]
      rw [a5, ← this]
      cases y.value <;> rfl
    · simp only [Expr.eval, Option.bind_eq_some_iff] at d2
      obtain ⟨val, hv1, hv2⟩ := d2
      exact ⟨val, hv1, by rw [a5]; exact hv2⟩
  · intro hc
    rw [← hconst] at hc
    obtain ⟨d1, d2⟩ := c2 hc
    exact ⟨by rw [a7, d1], by rw [a6, d2]; rfl⟩

/-! ## blocks -/

theorem nearest_iff (D : DeckState F W) {classes : List (String × ClassDesc F)} {m : ℕ → Option ℕ} (h : TInv classes m D) {b : ℕ}
    {l : List ℕ} (hl : IsChain D.store b l) (k : ℕ) : cursorOf (l.map m) = some k ↔ NearestMade D b k := by
  rw [isChain_nearest h.inv m hl k]
  unfold NearestMade
  simp only [h.made]

/-- C42: the current block of the block tree is the innermost block made for the current block of the file or one around it. -/
theorem C42_current (P : Program F W) (deck : List (Stmt F)) (k : ℕ) :
    (P.after deck).tree.cursor = some k ↔ NearestMade (P.after deck) (P.after deck).store.cursor k := by
  obtain ⟨m, h⟩ := tinv_after P deck
  obtain ⟨l, h1, -, h3⟩ := h.chain
  rw [h3]
  exact nearest_iff _ h h1 k

/-- C42: a block is made for exactly those blocks of the file whose class has a factory; one only, and with the same name. -/
theorem C42_made (P : Program F W) (deck : List (Stmt F)) (b : ℕ) (B : BlockVars) (hb : (P.after deck).store.blocks[b]? = some B) :
    ((∃ k, MadeFor (P.after deck) b k) ↔ HasFactory P.classes B.className) ∧
    (∀ k k', MadeFor (P.after deck) b k → MadeFor (P.after deck) b k' → k = k') ∧
    (∀ (k : ℕ) (A : Block), (P.after deck).tree.blocks[k]? = some A → A.context = b → A.name = B.name) := by
  obtain ⟨m, h⟩ := tinv_after P deck
  refine ⟨?_, ?_, ?_⟩
  · rw [← h.factory b B hb]
    simp only [h.made]
  · intro k k' hk hk'
    rw [← h.made] at hk hk'
    rw [hk, Option.some.injEq] at hk'
    exact hk'
  · rintro k A hA rfl
    obtain ⟨⟨Bv, hBv, hn⟩, -⟩ := h.parents k A hA
    rw [hb, Option.some.injEq] at hBv
    rw [hn, hBv]

/-- C42: the parent of a block made is the one made for the nearest block around it in the file for which one was made; it has no
parent if there is none. Every block lists the blocks whose parent it is, in the order of the file. -/
theorem C42_parents (P : Program F W) (deck : List (Stmt F)) (k : ℕ) (B : Block) (hB : (P.after deck).tree.blocks[k]? = some B) :
    (∀ p, B.parent = some p ↔ ∃ q, DirectlyIn (P.after deck).store q B.context ∧ NearestMade (P.after deck) q p) ∧
    (∀ j, j ∈ B.children ↔ ∃ C, (P.after deck).tree.blocks[j]? = some C ∧ C.parent = some k) ∧ B.children.Pairwise (· < ·) := by
  obtain ⟨m, h⟩ := tinv_after P deck
  refine ⟨?_, ?_, ?_⟩
  · intro p
    obtain ⟨-, l, h1, h2⟩ := h.parents k B hB
    rw [h2]
    have hcons : ∀ b l', IsChain (P.after deck).store b l' → l' = b :: l →
        (cursorOf (l.map m) = some p ↔ ∃ q, DirectlyIn (P.after deck).store q b ∧ NearestMade (P.after deck) q p) := by
      intro b l' hl heq
      cases hl with
      | root hr =>
        simp only [List.cons.injEq, true_and] at heq
        rw [← heq]
        simp only [List.map_nil, cursorOf, reduceCtorEq, false_iff]
        rintro ⟨q, hq, -⟩
        rw [Lemma.Vars.directlyIn_iff, hr] at hq
        simp at hq
      | @up _ q l'' hq hl =>
        simp only [List.cons.injEq, true_and] at heq
        subst heq
        rw [nearest_iff _ h hl p]
        constructor
        · intro hn; exact ⟨q, (Lemma.Vars.directlyIn_iff _ _ _).mpr hq, hn⟩
        · rintro ⟨q', hq', hn⟩
          rw [Lemma.Vars.directlyIn_iff, hq, Option.some.injEq] at hq'
          rw [hq']; exact hn
    exact hcons _ _ h1 rfl
  · intro j
    rw [h.children k B hB, List.mem_filter]
    simp only [List.mem_range, decide_eq_true_eq, Option.bind_eq_some_iff]
    constructor
    · rintro ⟨-, C, h1, h2⟩; exact ⟨C, h1, h2⟩
    · rintro ⟨C, h1, h2⟩; exact ⟨(List.getElem?_eq_some_iff.mp h1).1, C, h1, h2⟩
  · rw [h.children k B hB]
    exact List.Pairwise.filter _ List.pairwise_lt_range

/-- C42: the current block of the file is entered by an opening brace and left by a closing brace; a closing brace is an error
exactly if there is no open block. -/
theorem C42_braces (P : Program F W) (deck : List (Stmt F)) :
    (∀ c n, ((P.after deck).step P.host (.start c n)).1 = true →
      DirectlyIn ((P.after deck).step P.host (.start c n)).2.store (P.after deck).store.cursor
        ((P.after deck).step P.host (.start c n)).2.store.cursor) ∧
    (∀ p, DirectlyIn (P.after deck).store p (P.after deck).store.cursor →
      ((P.after deck).step P.host .stop).1 = true ∧ ((P.after deck).step P.host .stop).2.store.cursor = p ∧
      ((P.after deck).step P.host .stop).2.store.blocks = (P.after deck).store.blocks) ∧
    ((∀ p, ¬ DirectlyIn (P.after deck).store p (P.after deck).store.cursor) → ((P.after deck).step P.host .stop).1 = false) := by
  generalize P.after deck = D
  refine ⟨?_, ?_, ?_⟩
  · intro c n hok
    change (D.createBlock P.host c n).1 = true at hok
    show DirectlyIn (D.createBlock P.host c n).2.store D.store.cursor (D.createBlock P.host c n).2.store.cursor
    unfold DeckState.createBlock at hok ⊢
    by_cases h1 : (D.restr && !D.hasChild D.currentClass c) = true
    · rw [if_pos h1] at hok; simp at hok
    · rw [if_neg h1] at hok ⊢
      rcases hst : D.store.createBlock n c with _ | st
      · rw [hst] at hok; simp at hok
      · simp only
        have hs := enterBlock_same P.host { D with store := st } n c
        rw [hs.cursor]
        apply same_directlyIn hs
        exact (Lemma.Vars.createBlock_directlyIn hst _ _).mpr (Or.inr ⟨rfl, (Lemma.Vars.createBlock_cursor hst).1⟩)
  · intro p hp
    rw [Lemma.Vars.directlyIn_iff] at hp
    show D.endBlock.1 = true ∧ D.endBlock.2.store.cursor = p ∧ D.endBlock.2.store.blocks = _
    unfold endBlock
    rw [hp]
    refine ⟨rfl, ?_, rfl⟩
    show D.store.cursorUp.cursor = p
    unfold Storage.cursorUp; rw [hp]; rfl
  · intro h
    show D.endBlock.1 = false
    unfold endBlock
    rcases hp : D.store.parentOf D.store.cursor with _ | p
    · rfl
    · exact absurd ((Lemma.Vars.directlyIn_iff _ _ _).mpr hp) (h p)

theorem level_after (P : Program F W) (deck : List (Stmt F)) (h : P.Accepts deck) :
    closed deck ≤ opened deck ∧ Level (P.after deck).store (P.after deck).store.cursor (opened deck - closed deck) := by
  induction deck using List.reverseRecOn with
  | nil =>
    refine ⟨le_rfl, ?_⟩
    have hs : Same _ P.begin.store := enterBlock_same P.host
      (initial P.name P.className P.classes P.restr P.ext P.world P.nextId) P.name P.className
    show Level P.begin.store P.begin.store.cursor 0
    rw [hs.cursor]
    exact .root
  | append_singleton deck s ih =>
    rw [accepts_append, run_one] at h
    obtain ⟨ih1, ih2⟩ := ih h.1
    rw [after_append P deck [s] h.1, run_one]
    obtain ⟨l1, l2, l3⟩ := level_step P.host (P.after deck) s (dinv_after P deck).store _ ih2
    unfold opened closed at *
    simp only [List.countP_append]
    cases s with
    | decl t ds => exact ⟨ih1, by simpa using l3 (by simp) (by simp)⟩
    | assign n e => exact ⟨ih1, by simpa using l3 (by simp) (by simp)⟩
    | start c n =>
      have := l1 c n rfl h.2
      simp only [List.countP_singleton, if_true, if_false, Bool.false_eq_true]
      refine ⟨by omega, ?_⟩
      convert this using 1
      omega
    | stop =>
      obtain ⟨m1, m2⟩ := l2 rfl
      have hpos := m1.mp h.2
      have := m2 hpos
      simp only [List.countP_singleton, if_true, if_false, Bool.false_eq_true]
      refine ⟨by omega, ?_⟩
      convert this using 1
      omega

/-- C42: in an accepted file there are, up to any point, at most as many closing as opening braces. -/
theorem C42_balanced (P : Program F W) (deck rest : List (Stmt F)) (h : P.Accepts (deck ++ rest)) : closed deck ≤ opened deck :=
  (level_after P deck ((accepts_append P deck rest).mp h).1).1

/-- C43, the part that holds: at the end of an accepted file, as many blocks are open as closing braces are missing.
Missing: the file is accepted nevertheless (below). -/
theorem C43_open_blocks_partial (P : Program F W) (deck : List (Stmt F)) (h : P.Accepts deck) :
    Level (P.after deck).store (P.after deck).store.cursor (opened deck - closed deck) := (level_after P deck h).2

theorem chain_to_root {D : DeckState F W} {classes : List (String × ClassDesc F)} {m : ℕ → Option ℕ} (h : TInv classes m D) {b : ℕ}
    {l : List ℕ} (hl : IsChain D.store b l) : 0 ∈ l ∨ D.store.blocks.length ≤ b := by
  by_cases hb : b < D.store.blocks.length
  · left
    rw [isChain_mem hl]
    exact encloses_root h.inv b hb
  · right; omega

/-- C64, if the class of the root block has a factory: every block made descends from the root of the tree, so it takes part in
everything the tree does. Missing: if it has none (below). -/
theorem C64_no_block_lost_partial (P : Program F W) (hf : HasFactory P.classes P.className) (deck : List (Stmt F)) :
    (P.after deck).tree.root = some 0 ∧ ∀ k, k < (P.after deck).tree.blocks.length →
      ReflTransGen (fun j i => ∃ B, (P.after deck).tree.blocks[i]? = some B ∧ B.parent = some j) 0 k := by
  obtain ⟨m, h⟩ := tinv_after P deck
  -- the root block of the file is there
  have hroot : ∃ B, (P.after deck).store.blocks[0]? = some B ∧ B.className = P.className := by
    have hb : ∀ (D : DeckState F W) deck, (∃ B : BlockVars, D.store.blocks[0]? = some B ∧ B.className = P.className) → DInv D →
        ∃ B : BlockVars, (D.run P.host deck).2.store.blocks[0]? = some B ∧ B.className = P.className := by
      intro D deck
      unfold DeckState.run
      induction deck generalizing D with
      | nil => intro h _; exact h
      | cons s ss ih =>
        intro hB hD
        have hstep : ∃ B : BlockVars, (D.step P.host s).2.store.blocks[0]? = some B ∧ B.className = P.className := by
          obtain ⟨B, hB, hc⟩ := hB
          cases s with
          | decl t ds =>
            obtain ⟨-, h2, -⟩ := same_declare P.host D t ds hD.store
            obtain ⟨B', hB', -, hc', -⟩ := h2.block 0 B hB
            exact ⟨B', hB', by rw [hc', hc]⟩
          | assign n e =>
            refine ⟨B, ?_, hc⟩
            show (D.update P.host n e).2.store.blocks[0]? = some B
            rw [(same_update P.host D n e).1]; exact hB
          | start c n =>
            show ∃ B : BlockVars, (D.createBlock P.host c n).2.store.blocks[0]? = some B ∧ _
            unfold DeckState.createBlock
            split
            · exact ⟨B, hB, hc⟩
            · split
              · exact ⟨B, hB, hc⟩
              · rename_i st hst
                obtain ⟨B', hB', -, -, -, hc', -⟩ := Lemma.Vars.createBlock_old hst hB
                obtain ⟨B'', hB'', -, hc'', -⟩ := (enterBlock_same P.host { D with store := st } n c).block 0 B' hB'
                exact ⟨B'', hB'', by rw [hc'', hc', hc]⟩
          | stop =>
            refine ⟨B, ?_, hc⟩
            show D.endBlock.2.store.blocks[0]? = some B
            unfold endBlock
            split <;> exact hB
        rw [chain_cons]
        split
        · exact ih _ hstep (dinv_step P.host D s hD)
        · exact hstep
    refine hb P.begin deck ?_ (dinv_enterBlock _ _ _ _ (dinv_initial P))
    obtain ⟨B, hB, -, hc, -⟩ := (enterBlock_same P.host (initial P.name P.className P.classes P.restr P.ext P.world P.nextId)
      P.name P.className).block 0 _ rfl
    exact ⟨B, hB, hc⟩
  obtain ⟨B0, hB0, hc0⟩ := hroot
  obtain ⟨k0, hk0⟩ := (h.factory 0 B0 hB0).mpr (by rw [hc0]; exact hf)
  have hlt : ∀ b k, m b = some k → k < (P.after deck).tree.blocks.length := by
    intro b k hb
    obtain ⟨B, hB, -⟩ := (h.made b k).mp hb
    exact (List.getElem?_eq_some_iff.mp hB).1
  have hne : (P.after deck).tree.blocks.length ≠ 0 := by have := hlt 0 k0 hk0; omega
  refine ⟨by rw [h.root, if_neg hne], ?_⟩
  -- the parent of a block not made for the root block
  have key : ∀ (b k : ℕ), m b = some k → ReflTransGen (fun j i => ∃ B, (P.after deck).tree.blocks[i]? = some B ∧ B.parent = some j) k0 k := by
    intro b
    induction b using Nat.strong_induction_on with
    | _ b ih =>
      intro k hbk
      obtain ⟨B, hB, hBc⟩ := (h.made b k).mp hbk
      obtain ⟨⟨Bv, hBv, -⟩, l, h1, h2⟩ := h.parents k B hB
      rw [hBc] at h1
      by_cases hb0 : b = 0
      · rw [hb0, hk0, Option.some.injEq] at hbk
        rw [hbk]
      · have hblt : b < (P.after deck).store.blocks.length := by
          rw [hBc] at hBv; exact (List.getElem?_eq_some_iff.mp hBv).1
        have h0 : 0 ∈ l := by
          rcases chain_to_root h h1 with h0 | h0
          · rcases List.mem_cons.mp h0 with h0 | h0
            · omega
            · exact h0
          · omega
        obtain ⟨j, hj⟩ : ∃ j, cursorOf (l.map m) = some j := by
          have : ∀ l : List ℕ, 0 ∈ l → ∃ j, cursorOf (l.map m) = some j := by
            intro l
            induction l with
            | nil => intro h; simp at h
            | cons a l ihl =>
              intro hm
              rcases ha : m a with _ | j
              · simp only [List.map_cons, ha, cursorOf]
                rcases List.mem_cons.mp hm with rfl | hm
                · rw [hk0] at ha; simp at ha
                · exact ihl hm
              · exact ⟨j, by simp only [List.map_cons, ha, cursorOf]⟩
          exact this l h0
        obtain ⟨a, ha, haj⟩ := List.mem_map.mp (cursorOf_mem _ _ hj)
        have hab : a < b := by
          cases h1 with
          | root _ => simp at ha
          | up hp hl =>
            have h3 := isChain_le h.inv hl a ha
            have h4 := h.inv.parent _ _ ((Lemma.Vars.directlyIn_iff _ _ _).mpr hp)
            omega
        exact (ih a hab j haj).tail ⟨B, hB, by rw [h2, hj]⟩
  -- the block made for the root block is the first
  have hk00 : k0 = 0 := by
    have hB : (P.after deck).tree.blocks[0]? = some (P.after deck).tree.blocks[0] := List.getElem?_eq_getElem (by omega)
    have hm0 := (h.made _ 0).mpr ⟨_, hB, rfl⟩
    have hpath := key _ 0 hm0
    -- parents come first
    have hpar : ∀ (i j : ℕ) B, (P.after deck).tree.blocks[i]? = some B → B.parent = some j → j < i := by
      intro i j B hB hj
      exact (ordered_after P deck).parent i B j hB hj
    by_contra hne0
    rcases ReflTransGen.cases_tail hpath with e | ⟨c, -, B, hB', hc⟩
    · exact hne0 e.symm
    · have := hpar 0 c B hB' hc
      omega
  intro k hk
  have hB : (P.after deck).tree.blocks[k]? = some (P.after deck).tree.blocks[k] := List.getElem?_eq_getElem hk
  have := key _ k ((h.made _ k).mpr ⟨_, hB, rfl⟩)
  rw [hk00] at this
  exact this

/-! ## the end of the file -/

theorem parse_some {P : Program F W} {deck : List (Stmt F)} {D' : DeckState F W} (h : P.begin.parse P.host deck = some D') :
    P.Accepts deck ∧ (P.after deck).finish P.host = some D' := by
  unfold DeckState.parse at h
  unfold Program.Accepts Program.after
  rcases hr : P.begin.run P.host deck with ⟨b, D⟩
  rw [hr] at h
  cases b
  · simp at h
  · exact ⟨rfl, h⟩

/-- C59: reading a file that is accepted fails only if a variable depends on itself. -/
theorem C59_cycles (P : Program F W) (deck : List (Stmt F)) (h : P.Accepts deck) :
    P.begin.parse P.host deck = none ↔ ∃ v, TransGen (DependsOn (P.after deck)) v v := by
  rw [← (finish_spec P.host (dinv_after P deck)).2]
  unfold DeckState.parse Program.after
  have h : (P.begin.run P.host deck).1 = true := h
  rcases hr : P.begin.run P.host deck with ⟨b, D⟩
  rw [hr] at h
  simp only at h
  subst h
  rfl

/-- C59: after the file has been read, every variable that is not constant has the value of its defining expression, unless that
cannot be evaluated. All other variables are as the statements have left them, and so is everything else. -/
theorem C59_values_current (P : Program F W) (deck : List (Stmt F)) (D' : DeckState F W) (h : P.begin.parse P.host deck = some D') :
    (∀ v e, DefinedBy (P.after deck) v e → e.eval P.host.ops D'.state = some (D'.state.value v) ∨
      (e.eval P.host.ops D'.state = none ∧ D'.state.value v = (P.after deck).state.value v)) ∧
    (∀ (v : ℕ) (x : Variable F W), (P.after deck).heap[v]? = some x → ∃ val, D'.heap[v]? = some { x with value := val } ∧
      (val = x.value ∨ ∃ e, DefinedBy (P.after deck) v e)) ∧
    D'.store = (P.after deck).store ∧ D'.tree = (P.after deck).tree ∧ D'.world = (P.after deck).world ∧
    (∀ x < (P.after deck).nextExt, D'.ext x = (P.after deck).ext x) := by
  obtain ⟨h1, h2, h3, h4, h5, h6⟩ := (finish_spec P.host (dinv_after P deck)).1 D' (parse_some h).2
  exact ⟨h6, h5, h1, h2, h3, h4⟩

/-! ## declarations -/

theorem after_decl (P : Program F W) (deck : List (Stmt F)) (t : Ty) (ds) (rest : List (Stmt F))
    (h : P.Accepts (deck ++ .decl t ds :: rest)) : P.Accepts deck ∧ P.Accepts (deck ++ [.decl t ds]) ∧
      ((P.after deck).declare P.host t ds).1 = true ∧ P.after (deck ++ [.decl t ds]) = ((P.after deck).declare P.host t ds).2 ∧
      P.after (deck ++ .decl t ds :: rest) = (((P.after deck).declare P.host t ds).2.run P.host rest).2 := by
  have h' : P.Accepts ((deck ++ [.decl t ds]) ++ rest) := by simpa using h
  have h1 := (accepts_append P _ rest).mp h'
  have h2 := (accepts_append P deck _).mp h1.1
  have h3 : P.after (deck ++ [.decl t ds]) = ((P.after deck).declare P.host t ds).2 := by
    rw [after_append P deck _ h2.1, run_one]; rfl
  refine ⟨h2.1, h1.1, ?_, h3, ?_⟩
  · have := h2.2; rw [run_one] at this; exact this
  · have : deck ++ .decl t ds :: rest = (deck ++ [.decl t ds]) ++ rest := by simp
    rw [this, after_append P _ rest h1.1, h3]

/-- C63, the part that holds: the expressions of a declaration list mean what they mean before the list. Each name becomes a new
variable of the current block, with the type of the list. It has the value of the expression at this point, if that is constant,
and otherwise it is defined by it. Missing: an expression does not see the names declared before it in the same list (below). -/
theorem C63_declaration_partial (P : Program F W) (deck : List (Stmt F)) (t : Ty) (ds)
    (h : P.Accepts (deck ++ [.decl t ds])) (n : String) (og : Option (Grammar.Expression F)) (hm : (n, og) ∈ ds) :
    ∃ g e v x, og = some g ∧ g.build ((P.after deck).env P.host) = some e ∧
      Declares (P.after (deck ++ [.decl t ds])).store (P.after deck).store.cursor n v ∧
      (P.after (deck ++ [.decl t ds])).heap[v]? = some x ∧ (P.after deck).heap.length ≤ v ∧
      x.ty = t ∧ e.ty = t ∧ x.readOnly = false ∧ x.initialised = true ∧
      (e.isConstant (P.after deck).state = true → x.fixed = true ∧ e.eval P.host.ops (P.after deck).state = some x.value) ∧
      (e.isConstant (P.after deck).state = false → x.fixed = false ∧ x.expression = some e) := by
  obtain ⟨-, -, h2, h3, -⟩ := after_decl P deck t ds [] h
  rw [h3]
  exact declare_spec P.host (P.after deck) (dinv_after P deck) t ds h2 n og hm

/-- C60, the part that holds: a variable declared with a constant expression has the value of the expression at this point, and keeps
it, also after the file has been read, unless a later statement assigns to it. Missing: variables that are not constant (below). -/
theorem C60_constant_partial (P : Program F W) (deck : List (Stmt F)) (t : Ty) (ds) (rest : List (Stmt F))
    (h : P.Accepts (deck ++ .decl t ds :: rest)) (n : String) (g : Grammar.Expression F) (hm : (n, some g) ∈ ds) (e : Expr F W)
    (he : g.build ((P.after deck).env P.host) = some e) (hc : e.isConstant (P.after deck).state = true) :
    ∃ v val, Declares (P.after (deck ++ [.decl t ds])).store (P.after deck).store.cursor n v ∧
      e.eval P.host.ops (P.after deck).state = some val ∧
      ((∀ pre s post, rest = pre ++ s :: post → ¬ Assigns (P.after (deck ++ .decl t ds :: pre)) s v) →
        (P.after (deck ++ .decl t ds :: rest)).state.value v = val ∧
        ∀ D', P.begin.parse P.host (deck ++ .decl t ds :: rest) = some D' → D'.state.value v = val) := by
  obtain ⟨-, h1, h2, h3, h4⟩ := after_decl P deck t ds rest h
  obtain ⟨g', e', v, x, hg, a1, a2, a3, -, -, -, -, -, a9, -⟩ := declare_spec P.host (P.after deck) (dinv_after P deck) t ds h2 n _ hm
  simp only [Option.some.injEq] at hg
  subst hg
  rw [he, Option.some.injEq] at a1
  subst a1
  obtain ⟨b1, b2⟩ := a9 hc
  refine ⟨v, x.value, by rw [h3]; exact a2, b2, ?_⟩
  intro hno
  have hfin : (P.after (deck ++ .decl t ds :: rest)).heap[v]? = some x := by
    rw [h4]
    apply run_frame P.host _ (dinv_declare P.host _ t ds (dinv_after P deck)) rest v x a3
    intro pre s post hr hpre
    have hd : deck ++ .decl t ds :: pre = (deck ++ [.decl t ds]) ++ pre := by simp
    have := hno pre s post hr
    rw [hd, after_append P _ pre h1, h3] at this
    exact this
  refine ⟨by simp [state, hfin], ?_⟩
  intro D' hD'
  obtain ⟨-, c2, -⟩ := C59_values_current P _ D' hD'
  obtain ⟨val, d1, d2⟩ := c2 v x hfin
  rcases d2 with d2 | ⟨e2, -, x2, hx2, hf2, -⟩
  · simp [state, d1, d2]
  · rw [hfin, Option.some.injEq] at hx2
    rw [← hx2, b1] at hf2
    simp at hf2

/-- C61, the part that holds: a variable that has been declared, or assigned to, is marked as having a value, and stays so.
Missing: a variable that is not marked can be used in expressions (below). -/
theorem C61_marked_partial (P : Program F W) (deck rest : List (Stmt F)) (v : ℕ) (x : Variable F W)
    (hx : (P.after deck).heap[v]? = some x) (hi : x.initialised = true) :
    ∃ x', (P.after (deck ++ rest)).heap[v]? = some x' ∧ x'.initialised = true := by
  induction rest generalizing deck x with
  | nil => exact ⟨x, by simpa using hx, hi⟩
  | cons s ss ih =>
    have hd : deck ++ s :: ss = (deck ++ [s]) ++ ss := by simp
    rw [hd]
    by_cases hok : P.Accepts deck
    · have hs : P.after (deck ++ [s]) = ((P.after deck).step P.host s).2 := by rw [after_append P deck _ hok, run_one]
      by_cases ha : Assigns (P.after deck) s v
      · obtain ⟨n, g, path, rfl, hw, hr⟩ := ha
        rcases hb : ((P.after deck).step P.host (.assign n g)).1 with _ | _
        · exact ih (deck ++ [.assign n g]) x (by rw [hs, (C41_rejected _ _ _ _ hb).1]; exact hx) hi
        · obtain ⟨v', e, y, x', h1, -, -, -, h5, -, h7, -⟩ := C41_accepted P deck n path hw g hb
          have hinv := dinv_after P deck
          have hv : v' = v := by
            have e1 := (Lemma.Vars.getVariable_iff hinv.store _ hinv.store.cursor path n hw v').mpr h1
            rw [(Lemma.Vars.getVariable_iff hinv.store _ hinv.store.cursor path n hw v).mpr hr, Option.some.injEq] at e1
            exact e1.symm
          subst hv
          exact ih (deck ++ [.assign n g]) x' (by rw [hs]; exact h5) h7
      · refine ih (deck ++ [s]) x ?_ hi
        rw [hs]
        exact step_frame P.host _ (dinv_after P deck).store s v ha x hx
    · have : P.after (deck ++ [s]) = P.after deck := by
        unfold Program.after DeckState.run
        rw [chain_append, if_neg (show ¬ (chain (step P.host) deck P.begin).1 = true from hok)]
      exact ih (deck ++ [s]) x (by rw [this]; exact hx) hi

/-! ## the variables of a file -/

theorem reachable_step {S : Storage} (h : Reachable S) (op : Storage.Op) : Reachable (S.step op) := by
  obtain ⟨n, c, ops, rfl⟩ := h
  exact ⟨n, c, ops ++ [op], by simp [Storage.run]⟩

theorem reachable_enterBlock (H : Host F W) (D : DeckState F W) (n c : String) (h : Reachable D.store) :
    Reachable (enterBlock H D n c).store := by
  have hp : ∀ (specs : List (ParamSpec F)) cur s, Reachable s.1.store → Reachable (specs.foldl (addParameter H cur) s).1.store := by
    intro specs cur
    induction specs with
    | nil => intro s h; exact h
    | cons p ps ih =>
      intro s h
      rw [List.foldl_cons]
      exact ih _ (reachable_step h (.addVariableTo cur p.name s.1.heap.length))
  obtain ⟨l, hl, -⟩ := getClass_snd D c
  have hc : Reachable (D.getClass c).2.store := by rw [hl]; exact h
  rcases hf : (D.getClass c).1.factory with _ | specs
  · rw [enterBlock_none H D n c hf]; exact hc
  · rw [enterBlock_some H D n c specs hf]
    exact hp specs _ ((D.getClass c).2, []) hc

theorem reachable_after (P : Program F W) (deck : List (Stmt F)) : Reachable (P.after deck).store := by
  have one : ∀ t (D : DeckState F W) d, Reachable D.store → Reachable (storeOne P.host t D d).2.store := by
    intro t D d h
    unfold storeOne
    split
    · exact h
    · split
      · exact h
      · split
        · exact h
        · split
          · exact h
          · rename_i st hst
            have := reachable_step h (.addVariable d.1 D.heap.length)
            simp only [Storage.step, hst, Option.getD_some] at this
            exact this
  have many : ∀ t (l : List (String × Option (Expr F W))) (D : DeckState F W), Reachable D.store →
      Reachable (chain (storeOne P.host t) l D).2.store := by
    intro t l
    induction l with
    | nil => intro D h; exact h
    | cons a l ih =>
      intro D h
      rw [chain_cons]
      split
      · exact ih _ (one t D a h)
      · exact one t D a h
  have hstep : ∀ (D : DeckState F W) s, Reachable D.store → Reachable (D.step P.host s).2.store := by
    intro D s h
    cases s with
    | decl t ds =>
      show Reachable (D.declare P.host t ds).2.store
      unfold declare
      split
      · exact h
      · exact many t _ D h
    | assign n e =>
      show Reachable (D.update P.host n e).2.store
      rw [(same_update P.host D n e).1]; exact h
    | start c n =>
      show Reachable (D.createBlock P.host c n).2.store
      unfold DeckState.createBlock
      split
      · exact h
      · split
        · exact h
        · rename_i st hst
          apply reachable_enterBlock
          have := reachable_step h (.createBlock n c)
          simp only [Storage.step, hst, Option.getD_some] at this
          exact this
    | stop =>
      show Reachable D.endBlock.2.store
      unfold endBlock
      split
      · exact h
      · exact reachable_step h .cursorUp
  have hrun : ∀ (deck : List (Stmt F)) (D : DeckState F W), Reachable D.store → Reachable (chain (step P.host) deck D).2.store := by
    intro deck
    induction deck with
    | nil => intro D h; exact h
    | cons s ss ih =>
      intro D h
      rw [chain_cons]
      split
      · exact ih _ (hstep D s h)
      · exact hstep D s h
  exact hrun deck P.begin (reachable_enterBlock _ _ _ _ ⟨P.name, P.className, [], rfl⟩)

/-- C38: a name in a file means the variable that the scopes say. -/
theorem C38_in_files (P : Program F W) (deck : List (Stmt F)) (path : List String) (name : String) (hw : Written ':' path name) (v : ℕ) :
    (∃ t, ((P.after deck).env P.host).lookup name = some (v, t)) ↔
      Resolves (P.after deck).store (P.after deck).store.cursor path v := by
  have hi := dinv_after P deck
  rw [← C38_lookup _ (reachable_after P deck) _ hi.store.cursor path name hw v]
  constructor
  · rintro ⟨t, ht⟩
    simp only [env, Option.bind_eq_some_iff, Option.map_eq_some_iff] at ht
    obtain ⟨u, hu, x, -, hx⟩ := ht
    rw [hu]
    simp only [Prod.mk.injEq] at hx
    rw [hx.1]
  · intro h
    have hr := (Lemma.Vars.getVariable_iff hi.store _ hi.store.cursor path name hw v).mp h
    obtain ⟨b, n, hd⟩ : ∃ b n, Declares (P.after deck).store b n v := by
      obtain ⟨e, -, -, -, hl⟩ := hr
      clear h hw
      induction hl with
      | var h => exact ⟨_, _, h⟩
      | child _ _ ih => exact ih
    have := hi.bound b n v hd
    refine ⟨(P.after deck).heap[v].ty, ?_⟩
    simp only [env, h, Option.bind_some, List.getElem?_eq_getElem this, Option.map_some]

/-! ## examples -/

/-- an expression that is a number -/
def lit (i : ℤ) : Grammar.Expression ℚ := .one (.one (.one (.one (.lit (.int i)))))

/-- an expression that is a name -/
def ident (n : String) : Grammar.Expression ℚ := .one (.one (.one (.one (.ident n))))

/-- `n + i` -/
def plus (n : String) (i : ℤ) : Grammar.Expression ℚ := .add (.one (.one (.one (.ident n)))) (.one (.one (.one (.lit (.int i)))))

/-- The root block has a parameter `size` without default, and `t`, which can only be read. Blocks `A` are made by a factory, and have
a parameter `n` with default 1. -/
def exampleProgram : Program ℚ Unit where
  host := ⟨ratOps, fun _ => none⟩
  name := "root"
  className := "Root"
  classes := [("Root", ⟨[], some [⟨"size", .int 7, none, false, false, by simp⟩, ⟨"t", .int 5, none, true, false, by simp⟩]⟩),
    ("A", ⟨[], some [⟨"n", .int 0, some (.int 1), false, false, by simp [Val.ty]⟩]⟩)]
  restr := false
  ext := fun _ => .int 0
  world := ()
  nextId := 0
  nextId_nonneg := le_rfl

/-- `int a = 3; B b { A c { n = a; } } a = 4;` -/
def exampleDeck : List (Stmt ℚ) :=
  [.decl .int [("a", some (lit 3))], .start "B" "b", .start "A" "c", .assign "n" (ident "a"), .stop, .stop, .assign "a" (lit 4)]

/-- what became of a file: blocks made with their parents, and the values of all variables but the last, which
`parse` adds -/
def summary (D : Option (DeckState ℚ Unit)) : Option (List (String × Option ℕ × List ℕ) × List (Val ℚ)) :=
  D.map fun D => (D.tree.blocks.map fun B => (B.name, B.parent, B.children), D.heap.dropLast.map Variable.value)

/-- The hypotheses of C41, C42 and C59 are met: the file is accepted, the block `c` is a child of the root block because `b` was not
made, and `n` and `a` have been assigned to. -/
example : exampleProgram.Accepts exampleDeck ∧
    summary (exampleProgram.begin.parse exampleProgram.host exampleDeck) =
      some ([("root", none, [1]), ("c", some 0, [])], [.int 0, .int 5, .int 4, .int 3]) := by
  constructor
  · show _ = true
    decide +kernel
  · decide +kernel

/-- C41: `t = 6;` is rejected, because `t` is read-only. -/
example : ¬ exampleProgram.Accepts [.assign "t" (lit 6)] := by
  show ¬ (_ = true)
  decide +kernel

/-- C43 is false: a file that ends inside two blocks is accepted, and read to the end. -/
theorem C43_violated_open_blocks : ∃ deck, closed deck < opened deck ∧
    (exampleProgram.begin.parse exampleProgram.host deck).isSome = true :=
  ⟨[.start "B" "b", .start "A" "c"], by decide +kernel⟩

/-- `exampleProgram` without a factory for the root block -/
def noRoot : Program ℚ Unit :=
  { exampleProgram with className := "Other" }

/-- C64 is false if the class of the root block has no factory: of two blocks `A a {} A c {}` the first becomes the root of the tree.
The second is lost: it is not the root, and it is not a child of any block. -/
theorem C64_violated_no_root : ¬ HasFactory noRoot.classes noRoot.className ∧
    (noRoot.begin.parse noRoot.host [.start "A" "a", .stop, .start "A" "c", .stop]).map
      (fun D => (D.tree.root, D.tree.blocks.map fun B => (B.name, B.parent, B.children))) =
      some (some 0, [("a", none, []), ("c", none, [])]) := by
  constructor
  · rintro ⟨c, specs, h, -⟩
    revert h
    simp [noRoot, exampleProgram, List.lookup]
  · decide +kernel

example : HasFactory exampleProgram.classes exampleProgram.className := ⟨_, _, rfl, rfl⟩

/-- C60 is false: after `int x = t; int y = x; x = t + 1;`, where `t` is 5, `y` is 6. -/
theorem C60_violated_later_assignment :
    summary (exampleProgram.begin.parse exampleProgram.host
      [.decl .int [("x", some (ident "t"))], .decl .int [("y", some (ident "x"))], .assign "x" (plus "t" 1)]) =
      some ([("root", none, [])], [.int 0, .int 5, .int 6, .int 6]) := by
  decide +kernel

/-- C60 is false: `int x = t; x = x + 1;` is accepted, but then `x` depends on itself, and reading the file fails. -/
theorem C60_violated_increment : ∃ deck, deck = [.decl .int [("x", some (ident "t"))], .assign "x" (plus "x" 1)] ∧
    exampleProgram.Accepts deck ∧ exampleProgram.begin.parse exampleProgram.host deck = none := by
  refine ⟨_, rfl, ?_, ?_⟩
  · show _ = true
    decide +kernel
  · rw [← Option.not_isSome_iff_eq_none]
    decide +kernel

/-- C61 is false: in `int n = size; size = 3;` the parameter `size` is used before it has a value; `n` becomes 0. -/
theorem C61_violated_no_value :
    exampleProgram.begin.store.getVariable 0 "size" = some 0 ∧
    exampleProgram.begin.heap[0]?.map Variable.initialised = some false ∧
    summary (exampleProgram.begin.parse exampleProgram.host
      [.decl .int [("n", some (ident "size"))], .assign "size" (lit 3)]) =
      some ([("root", none, [])], [.int 3, .int 5, .int 0]) := by
  refine ⟨?_, ?_, ?_⟩ <;> decide +kernel

/-- C63 is false: in `int a = 1; B b { int a = 2, c = a; }` the variable `c` becomes 1, and `int a = 2, c = a;` alone is rejected. -/
theorem C63_violated_earlier_name :
    summary (exampleProgram.begin.parse exampleProgram.host
      [.decl .int [("a", some (lit 1))], .start "B" "b", .decl .int [("a", some (lit 2)), ("c", some (ident "a"))], .stop]) =
      some ([("root", none, [])], [.int 0, .int 5, .int 1, .int 1, .int 2]) ∧
    ¬ exampleProgram.Accepts [.decl .int [("a", some (lit 2)), ("c", some (ident "a"))]] := by
  constructor
  · decide +kernel
  · show ¬ (_ = true)
    decide +kernel

/-- The hypotheses of C60 and C63 are met: `int a = 3, c = a0 + 2;` after `int a0 = 1;`. -/
example : ∃ e, exampleProgram.Accepts [.decl .int [("a0", some (lit 1))], .decl .int [("a", some (lit 3)), ("c", some (plus "a0" 2))]] ∧
    (plus "a0" 2).build ((exampleProgram.after [.decl .int [("a0", some (lit 1))]]).env exampleProgram.host) = some e ∧
    e.isConstant (exampleProgram.after [.decl .int [("a0", some (lit 1))]]).state = true := by
  refine ⟨assignBinary .add (assignUnary .id (.ref .int 2)) (assignUnary .id (.value (.int 2))), ?_, ?_, ?_⟩
  · show _ = true
    decide +kernel
  · have h : ((exampleProgram.after [.decl .int [("a0", some (lit 1))]]).env exampleProgram.host).lookup "a0" = some (2, .int) := by
      decide +kernel
    simp only [plus, Expression.build, SignedTerm.build, Unsigned.build, Term.build, Power.build, Atomic.build, h]
    rfl
  · decide +kernel

/-- A cycle as in C59 occurs: `int x = t; int y = x; x = y;`. -/
example : ∃ v, TransGen (DependsOn (exampleProgram.after
    [.decl .int [("x", some (ident "t"))], .decl .int [("y", some (ident "x"))], .assign "x" (ident "y")])) v v := by
  rw [← C59_cycles exampleProgram _ (by show _ = true; decide +kernel), ← Option.not_isSome_iff_eq_none]
  decide +kernel

end Schnek.Props
