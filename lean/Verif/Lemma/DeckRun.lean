import Verif.Lemma.DeckTree

namespace Schnek.Lemma.Deck

open Schnek.Deck Schnek.Spec Relation DeckState

variable {F W : Type}

theorem isChain_congr {S S' : Storage} (h : ∀ b, S'.parentOf b = S.parentOf b) {b : ℕ} {l : List ℕ} (hl : IsChain S b l) :
    IsChain S' b l := by
  induction hl with
  | root h' => exact .root (by rw [h]; exact h')
  | up h' _ ih => exact .up (by rw [h]; exact h') ih

theorem isChain_unique {S : Storage} {b : ℕ} {l l' : List ℕ} (h : IsChain S b l) (h' : IsChain S b l') : l = l' := by
  induction h generalizing l' with
  | root h1 =>
    cases h' with
    | root _ => rfl
    | up h2 _ => rw [h1] at h2; simp at h2
  | up h1 _ ih =>
    cases h' with
    | root h2 => rw [h1] at h2; simp at h2
    | up h2 h3 =>
      rw [h1, Option.some.injEq] at h2
      rw [← h2] at h3
      rw [ih h3]

theorem isChain_le {S : Storage} (hS : Vars.Inv S) {b : ℕ} {l : List ℕ} (h : IsChain S b l) : ∀ x ∈ l, x ≤ b := by
  induction h with
  | root _ => intro x hx; simp at hx; omega
  | up h1 _ ih =>
    intro x hx
    have := hS.parent _ _ ((Vars.directlyIn_iff S _ _).mpr h1)
    rcases List.mem_cons.mp hx with rfl | hx
    · exact le_rfl
    · have := ih x hx; omega

theorem isChain_mem {S : Storage} {b : ℕ} {l : List ℕ} (h : IsChain S b l) (e : ℕ) : e ∈ l ↔ Encloses S e b := by
  induction h with
  | root h1 =>
    rw [Vars.encloses_cases]
    simp only [List.mem_singleton, Vars.directlyIn_iff, h1, reduceCtorEq, false_and, exists_false, or_false]
  | up h1 _ ih =>
    rw [Vars.encloses_cases, List.mem_cons, ih]
    simp only [Vars.directlyIn_iff, h1, Option.some.injEq, exists_eq_left']

theorem isChain_nearest {S : Storage} (hS : Vars.Inv S) (m : ℕ → Option ℕ) {b : ℕ} {l : List ℕ} (h : IsChain S b l) (k : ℕ) :
    cursorOf (l.map m) = some k ↔
      ∃ e, Encloses S e b ∧ m e = some k ∧ ∀ e' k', Encloses S e' b → m e' = some k' → Encloses S e' e := by
  have here : ∀ b, m b = some k → ∃ e, Encloses S e b ∧ m e = some k ∧ ∀ e' k', Encloses S e' b → m e' = some k' → Encloses S e' e :=
    fun b hb => ⟨b, .refl, hb, fun e' _ h' _ => h'⟩
  have hereEq : ∀ b j, m b = some j → (∃ e, Encloses S e b ∧ m e = some k ∧
      ∀ e' k', Encloses S e' b → m e' = some k' → Encloses S e' e) → j = k := by
    rintro b j hb ⟨e, he1, he2, he3⟩
    have h1 := Vars.encloses_le hS he1
    have h2 := Vars.encloses_le hS (he3 b j .refl hb)
    have : e = b := by omega
    rw [this, hb, Option.some.injEq] at he2
    exact he2
  induction h with
  | @root b h1 =>
    rcases hb : m b with _ | j
    · simp only [List.map_cons, List.map_nil, hb, cursorOf, reduceCtorEq, false_iff]
      rintro ⟨e, he1, he2, -⟩
      rw [Vars.encloses_cases] at he1
      rcases he1 with rfl | ⟨p, hp, -⟩
      · rw [hb] at he2; simp at he2
      · rw [Vars.directlyIn_iff, h1] at hp; simp at hp
    · simp only [List.map_cons, List.map_nil, hb, cursorOf, Option.some.injEq]
      constructor
      · rintro rfl; exact here b hb
      · exact hereEq b j hb
  | @up b p l h1 _ ih =>
    rcases hb : m b with _ | j
    · simp only [List.map_cons, hb, cursorOf]
      refine ih.trans ?_
      have hup : ∀ e, Encloses S e p → Encloses S e b := fun e he => he.tail ((Vars.directlyIn_iff S _ _).mpr h1)
      have hdown : ∀ e j, Encloses S e b → m e = some j → Encloses S e p := by
        intro e j he hj
        rw [Vars.encloses_cases] at he
        rcases he with rfl | ⟨q, hq, he⟩
        · rw [hb] at hj; simp at hj
        · rw [Vars.directlyIn_iff, h1, Option.some.injEq] at hq
          rw [hq]; exact he
      constructor
      · rintro ⟨e, he1, he2, he3⟩
        exact ⟨e, hup e he1, he2, fun e' k' h' hk' => he3 e' k' (hdown e' k' h' hk') hk'⟩
      · rintro ⟨e, he1, he2, he3⟩
        exact ⟨e, hdown e k he1 he2, he2, fun e' k' h' hk' => he3 e' k' (hup e' h') hk'⟩
    · simp only [List.map_cons, hb, cursorOf, Option.some.injEq]
      constructor
      · rintro rfl; exact here b hb
      · exact hereEq b j hb

/-- adding variables to the storage -/
theorem tinv_same {classes : List (String × ClassDesc F)} {m : ℕ → Option ℕ} {D D' : DeckState F W} (h : TInv classes m D)
    (hinv : Vars.Inv D'.store) (hs : Same D.store D'.store) (ht : D'.tree = D.tree) (hc : D'.classes = D.classes) :
    TInv classes m D' := by
  constructor
  · exact hinv
  · intro b k; rw [h.made]; unfold MadeFor; rw [ht]
  · obtain ⟨l, h1, h2, h3⟩ := h.chain
    exact ⟨l, by rw [hs.cursor]; exact hs.isChain h1, by rw [ht]; exact h2, by rw [ht]; exact h3⟩
  · rw [ht]
    intro k B hB
    obtain ⟨⟨Bv, hBv, hn⟩, l, h1, h2⟩ := h.parents k B hB
    obtain ⟨B', hB', hn', -⟩ := hs.block _ _ hBv
    exact ⟨⟨B', hB', by rw [hn', hn]⟩, l, hs.isChain h1, h2⟩
  · rw [ht]; exact h.children
  · rw [ht]; exact h.root
  · intro b Bv hb
    have hlt : b < D.store.blocks.length := by rw [← hs.length]; exact (List.getElem?_eq_some_iff.mp hb).1
    obtain ⟨B', hB', -, h2, -⟩ := hs.block b _ (List.getElem?_eq_getElem hlt)
    rw [hb, Option.some.injEq] at hB'
    rw [hB', h2]
    exact h.factory b _ (List.getElem?_eq_getElem hlt)
  · rw [hc]; exact h.classes

theorem tinv_createBlock {classes : List (String × ClassDesc F)} {m : ℕ → Option ℕ} {D : DeckState F W} (h : TInv classes m D)
    (H : Host F W) (c n : String) : ∃ m', TInv classes m' (D.createBlock H c n).2 := by
  unfold DeckState.createBlock
  split
  · exact ⟨m, h⟩
  · split
    · exact ⟨m, h⟩
    · rename_i st hst
      obtain ⟨hcur, hlen, -⟩ := Vars.createBlock_cursor hst
      have hpar : ∀ b, b < D.store.blocks.length → st.parentOf b = D.store.parentOf b := by
        intro b hb
        obtain ⟨B, hB, -, h2, -⟩ := Vars.createBlock_old hst (List.getElem?_eq_getElem hb)
        unfold Storage.parentOf
        rw [hB, List.getElem?_eq_getElem hb, Option.bind_some, Option.bind_some, h2]
      have hchain : ∀ b l, IsChain D.store b l → b < D.store.blocks.length → IsChain st b l := by
        intro b l hl
        induction hl with
        | root h1 => intro hb; exact .root (by rw [hpar _ hb]; exact h1)
        | up h1 _ ih =>
          intro hb
          have := h.inv.parent _ _ ((Vars.directlyIn_iff D.store _ _).mpr h1)
          exact .up (by rw [hpar _ hb]; exact h1) (ih (by omega))
      have hcl := h.inv.cursor
      obtain ⟨l, h1, h2, h3⟩ := h.chain
      refine pre_enter (l := l) (m := m) ?_ H n c ?_
      · constructor
        · exact Vars.inv_createBlock h.inv hst
        · exact h.made
        · show m st.cursor = none
          rw [hcur]
          rcases hm : m D.store.blocks.length with _ | k
          · rfl
          · obtain ⟨B, hB, hB'⟩ := (h.made _ k).mp hm
            obtain ⟨⟨Bv, hBv, -⟩, -⟩ := h.parents k B hB
            rw [hB'] at hBv
            have := (List.getElem?_eq_some_iff.mp hBv).1
            omega
        · show IsChain st st.cursor (st.cursor :: l)
          refine .up ?_ (hchain _ _ h1 hcl)
          unfold Storage.parentOf
          rw [Vars.createBlock_blocks hst, if_pos hcur]
          rfl
        · intro b hb
          have := isChain_le h.inv h1 b hb
          show b ≠ st.cursor
          omega
        · exact h2
        · exact h3
        · intro k B hB
          obtain ⟨⟨Bv, hBv, hn⟩, l', a1, a2⟩ := h.parents k B hB
          obtain ⟨B', hB', hn', -⟩ := Vars.createBlock_old hst hBv
          have hlt := (List.getElem?_eq_some_iff.mp hBv).1
          refine ⟨⟨B', hB', by rw [hn', hn]⟩, l', hchain _ _ a1 hlt, a2, ?_⟩
          intro b hb
          have := isChain_le h.inv a1 b (List.mem_cons_of_mem _ hb)
          show b ≠ st.cursor
          omega
        · exact h.children
        · exact h.root
        · intro b Bv hb hne
          rcases Vars.createBlock_cases hst hb with ⟨rfl, -⟩ | ⟨A, hA, -⟩
          · exact absurd hcur.symm hne
          · obtain ⟨B', hB', -, -, -, hc', -⟩ := Vars.createBlock_old hst hA
            change st.blocks[b]? = some Bv at hb
            rw [hb, Option.some.injEq] at hB'
            rw [hB', hc']
            exact h.factory b A hA
        · exact h.classes
      · refine ⟨?_, ?_, ?_, ?_⟩
        · exact { name := n, className := c, parent := some D.store.cursor, children := [], vars := [], childrenByName := [] }
        · show st.blocks[st.cursor]? = _
          rw [Vars.createBlock_blocks hst, if_pos hcur]
        · rfl
        · rfl

theorem tinv_endBlock {classes : List (String × ClassDesc F)} {m : ℕ → Option ℕ} {D : DeckState F W} (h : TInv classes m D) :
    TInv classes m D.endBlock.2 := by
  unfold endBlock
  rcases hp : D.store.parentOf D.store.cursor with _ | p
  · exact h
  simp only
  obtain ⟨l, h1, h2, h3⟩ := h.chain
  have hcup : D.store.cursorUp.cursor = p := by
    unfold Storage.cursorUp; rw [hp]; rfl
  have hblk : D.store.cursorUp.blocks = D.store.blocks := rfl
  have hpar : ∀ b, D.store.cursorUp.parentOf b = D.store.parentOf b := fun b => rfl
  obtain ⟨l', rfl, hl'⟩ : ∃ l', l = D.store.cursor :: l' ∧ IsChain D.store p l' := by
    generalize hc : D.store.cursor = c at *
    cases h1 with
    | root h' => rw [hp] at h'; simp at h'
    | up h' h'' =>
      rw [hp, Option.some.injEq] at h'
      exact ⟨_, rfl, by rw [h']; exact h''⟩
  have hmv : D.tree.moveUp.blocks = D.tree.blocks ∧ D.tree.moveUp.root = D.tree.root ∧
      D.tree.moveUp.depth = depthOf (l'.map m) ∧ D.tree.moveUp.cursor = cursorOf (l'.map m) := by
    rcases hm : m D.store.cursor with _ | k
    · rw [List.map_cons, hm] at h2 h3
      simp only [depthOf, cursorOf] at h2 h3
      unfold BlockTree.moveUp
      rcases hd : depthOf (l'.map m) with _ | ⟨d, ds⟩
      · rw [hd] at h2
        simp only at h2
        rw [h2]
        exact ⟨rfl, rfl, h2, h3⟩
      · rw [hd] at h2
        simp only at h2
        rw [h2]
        exact ⟨rfl, rfl, rfl, h3⟩
    · rw [List.map_cons, hm] at h2 h3
      simp only [depthOf, cursorOf] at h2 h3
      unfold BlockTree.moveUp
      rw [h2]
      refine ⟨rfl, rfl, rfl, ?_⟩
      simp only [h3, Option.bind_some]
      obtain ⟨B, hB, hBc⟩ := (h.made _ k).mp hm
      rw [hB, Option.bind_some]
      obtain ⟨-, l'', a1, a2⟩ := h.parents k B hB
      rw [hBc] at a1
      have := isChain_unique a1 h1
      simp only [List.cons.injEq, true_and] at this
      rw [a2, this]
  obtain ⟨g1, g2, g3, g4⟩ := hmv
  constructor
  · exact Vars.inv_cursorUp h.inv
  · intro b k; rw [h.made]; unfold MadeFor; simp only [g1]
  · exact ⟨l', by simp only [hcup]; exact isChain_congr hpar hl', g3, g4⟩
  · simp only [g1]
    intro k B hB
    obtain ⟨a, l'', a1, a2⟩ := h.parents k B hB
    exact ⟨a, l'', isChain_congr hpar a1, a2⟩
  · simp only [g1]; exact h.children
  · simp only [g1, g2]; exact h.root
  · exact h.factory
  · exact h.classes

/-- declarations only add variables to the storage -/
theorem same_declare (H : Host F W) (D : DeckState F W) (t : Ty) (ds) (hinv : Vars.Inv D.store) :
    Vars.Inv (D.declare H t ds).2.store ∧ Same D.store (D.declare H t ds).2.store ∧ (D.declare H t ds).2.tree = D.tree ∧
      (D.declare H t ds).2.classes = D.classes := by
  have one : ∀ (D : DeckState F W) d, Vars.Inv D.store → Vars.Inv (storeOne H t D d).2.store ∧ Same D.store (storeOne H t D d).2.store ∧
      (storeOne H t D d).2.tree = D.tree ∧ (storeOne H t D d).2.classes = D.classes := by
    intro D d hD
    unfold storeOne
    split
    · exact ⟨hD, Same.refl _, rfl, rfl⟩
    · split
      · exact ⟨hD, Same.refl _, rfl, rfl⟩
      · split
        · exact ⟨hD, Same.refl _, rfl, rfl⟩
        · split
          · exact ⟨hD, Same.refl _, rfl, rfl⟩
          · rename_i st hst
            exact ⟨Vars.inv_addVariableTo hD hst, same_addVariableTo hst, rfl, rfl⟩
  unfold declare
  split
  · exact ⟨hinv, Same.refl _, rfl, rfl⟩
  · rename_i l hl
    clear hl
    generalize l.reverse = l
    induction l generalizing D with
    | nil => exact ⟨hinv, Same.refl _, rfl, rfl⟩
    | cons a l ih =>
      rw [chain_cons]
      obtain ⟨o1, o2, o3, o4⟩ := one D a hinv
      split
      · obtain ⟨i1, i2, i3, i4⟩ := ih _ o1
        exact ⟨i1, o2.trans i2, by rw [i3, o3], by rw [i4, o4]⟩
      · exact ⟨o1, o2, o3, o4⟩

theorem same_update (H : Host F W) (D : DeckState F W) (n : String) (e : Grammar.Expression F) :
    (D.update H n e).2.store = D.store ∧ (D.update H n e).2.tree = D.tree ∧ (D.update H n e).2.classes = D.classes := by
  unfold update
  repeat' (first | split | exact ⟨rfl, rfl, rfl⟩)

theorem tinv_step {classes : List (String × ClassDesc F)} {D : DeckState F W} (h : ∃ m, TInv classes m D)
    (H : Host F W) (s : Stmt F) : ∃ m, TInv classes m (D.step H s).2 := by
  obtain ⟨m, h⟩ := h
  cases s with
  | decl t ds =>
    obtain ⟨h1, h2, h3, h4⟩ := same_declare H D t ds h.inv
    exact ⟨m, tinv_same h h1 h2 h3 h4⟩
  | assign n e =>
    obtain ⟨h1, h2, h3⟩ := same_update H D n e
    refine ⟨m, tinv_same h ?_ ?_ h2 h3⟩
    · show Vars.Inv (D.update H n e).2.store
      rw [h1]; exact h.inv
    · show Same D.store (D.update H n e).2.store
      rw [h1]; exact Same.refl _
  | start c n => exact tinv_createBlock h H c n
  | stop => exact ⟨m, tinv_endBlock h⟩

theorem tinv_run {classes : List (String × ClassDesc F)} {D : DeckState F W} (h : ∃ m, TInv classes m D)
    (H : Host F W) (deck : List (Stmt F)) : ∃ m, TInv classes m (D.run H deck).2 := by
  unfold run
  induction deck generalizing D with
  | nil => exact h
  | cons s ss ih =>
    rw [chain_cons]
    split
    · exact ih (tinv_step h H s)
    · exact tinv_step h H s

theorem tinv_after (P : Program F W) (deck : List (Stmt F)) : ∃ m, TInv P.classes m (P.after deck) := by
  refine tinv_run ?_ P.host deck
  refine pre_enter (l := []) (m := fun _ => none) ?_ P.host P.name P.className ?_
  · constructor
    · exact Vars.inv_create _ _
    · intro b k
      simp only [reduceCtorEq, false_iff]
      rintro ⟨B, hB, -⟩
      simp [initial, BlockTree.empty] at hB
    · rfl
    · exact .root rfl
    · intro b hb; simp at hb
    · rfl
    · rfl
    · intro k B hB; simp [initial, BlockTree.empty] at hB
    · intro k B hB; simp [initial, BlockTree.empty] at hB
    · rfl
    · intro b Bv hb hne
      exfalso
      have hb' := (List.getElem?_eq_some_iff.mp hb).1
      simp only [initial, Storage.create, List.length_singleton] at hb' hne
      omega
    · intro c; rfl
  · exact ⟨_, rfl, rfl, rfl⟩

/-! ## braces -/

theorem level_same {S S' : Storage} (h : ∀ p b, DirectlyIn S p b → DirectlyIn S' p b) {b n : ℕ} (hl : Level S b n) : Level S' b n := by
  induction hl with
  | root => exact .root
  | inside h1 _ ih => exact .inside (h _ _ h1) ih

theorem same_directlyIn {S S' : Storage} (h : Same S S') (p b : ℕ) (hp : DirectlyIn S p b) : DirectlyIn S' p b := by
  rw [Vars.directlyIn_iff] at hp ⊢
  rw [h.parentOf]; exact hp

theorem enterBlock_same (H : Host F W) (D : DeckState F W) (n c : String) : Same D.store (enterBlock H D n c).store := by
  obtain ⟨lc, hcl, -⟩ := getClass_snd D c
  have e1 : (D.getClass c).2.store = D.store := by rw [hcl]
  rcases hf : (D.getClass c).1.factory with _ | specs
  · rw [enterBlock_none H D n c hf]
    show Same D.store (D.getClass c).2.store
    rw [e1]; exact Same.refl _
  · rw [enterBlock_some H D n c specs hf]
    have := (same_params H (D.getClass c).2.store.cursor specs ((D.getClass c).2, [])).1
    rw [← e1]; exact this

/-- one accepted statement -/
theorem level_step (H : Host F W) (D : DeckState F W) (s : Stmt F) (h : Vars.Inv D.store) (n : ℕ)
    (hl : Level D.store D.store.cursor n) :
    (∀ c m, s = .start c m → (D.step H s).1 = true → Level (D.step H s).2.store (D.step H s).2.store.cursor (n + 1)) ∧
    (s = .stop → ((D.step H s).1 = true ↔ 0 < n) ∧
      (0 < n → Level (D.step H s).2.store (D.step H s).2.store.cursor (n - 1))) ∧
    ((∀ c m, s ≠ .start c m) → s ≠ .stop → Level (D.step H s).2.store (D.step H s).2.store.cursor n) := by
  cases s with
  | decl t ds =>
    refine ⟨by simp, by simp, fun _ _ => ?_⟩
    obtain ⟨-, h2, -⟩ := same_declare H D t ds h
    show Level (D.declare H t ds).2.store (D.declare H t ds).2.store.cursor n
    rw [h2.cursor]
    exact level_same (same_directlyIn h2) hl
  | assign m e =>
    refine ⟨by simp, by simp, fun _ _ => ?_⟩
    show Level (D.update H m e).2.store (D.update H m e).2.store.cursor n
    rw [(same_update H D m e).1]
    exact hl
  | start c m =>
    refine ⟨?_, by simp, by simp⟩
    rintro c' m' - hok
    change (D.createBlock H c m).1 = true at hok
    show Level (D.createBlock H c m).2.store (D.createBlock H c m).2.store.cursor (n + 1)
    unfold DeckState.createBlock at hok ⊢
    split
    · rename_i h1; rw [if_pos h1] at hok; simp at hok
    · rename_i h1
      rw [if_neg h1] at hok
      rcases hst : D.store.createBlock m c with _ | st
      · rw [hst] at hok; simp at hok
      · simp only
        have hs := enterBlock_same H { D with store := st } m c
        rw [hs.cursor]
        refine level_same (same_directlyIn hs) ?_
        have hd := Vars.createBlock_directlyIn hst
        obtain ⟨hcur, -, -⟩ := Vars.createBlock_cursor hst
        refine .inside ((hd _ _).mpr (Or.inr ⟨rfl, hcur⟩)) ?_
        exact level_same (fun p b hp => (hd p b).mpr (Or.inl hp)) hl
  | stop =>
    refine ⟨by simp, fun _ => ?_, by simp⟩
    show (D.endBlock.1 = true ↔ 0 < n) ∧ (0 < n → Level D.endBlock.2.store D.endBlock.2.store.cursor (n - 1))
    unfold endBlock
    generalize hcc : D.store.cursor = c at hl
    cases hl with
    | root =>
      rw [h.root]
      simp
    | @inside p _ k hp hl =>
      rw [(Vars.directlyIn_iff _ _ _).mp hp]
      simp only [Nat.zero_lt_succ, forall_const, Nat.add_sub_cancel]
      refine ⟨trivial, ?_⟩
      have : D.store.cursorUp.cursor = p := by
        unfold Storage.cursorUp; rw [hcc, (Vars.directlyIn_iff _ _ _).mp hp]; rfl
      rw [this]
      exact level_same (S := D.store) (S' := D.store.cursorUp) (fun _ _ h => h) hl

end Schnek.Lemma.Deck
