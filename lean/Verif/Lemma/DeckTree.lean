import Verif.Lemma.DeckInv

namespace Schnek.Lemma.Deck

open Schnek.Deck Schnek.Spec Relation DeckState

variable {F W : Type}

/-- a block and the blocks around it, from inside out -/
inductive IsChain (S : Storage) : ℕ → List ℕ → Prop
  | root {b} : S.parentOf b = none → IsChain S b [b]
  | up {b p l} : S.parentOf b = some p → IsChain S p l → IsChain S b (b :: l)

theorem isChain_head {S : Storage} {b : ℕ} {l : List ℕ} (h : IsChain S b l) : ∃ l', l = b :: l' := by
  cases h with
  | root _ => exact ⟨[], rfl⟩
  | up _ _ => exact ⟨_, rfl⟩

/-- the stack of `BlockTree` -/
def depthOf : List (Option ℕ) → List ℕ
  | [] => []
  | some _ :: l => 0 :: depthOf l
  | none :: l => match depthOf l with
    | [] => []
    | d :: ds => (d + 1) :: ds

/-- the innermost block made -/
def cursorOf : List (Option ℕ) → Option ℕ
  | [] => none
  | some k :: _ => some k
  | none :: l => cursorOf l

theorem cursorOf_nil_of_depth : ∀ l : List (Option ℕ), depthOf l = [] → cursorOf l = none
  | [], _ => rfl
  | some k :: l, h => by simp [depthOf] at h
  | none :: l, h => by
      have : depthOf l = [] := by
        simp only [depthOf] at h
        rcases hd : depthOf l with _ | ⟨d, ds⟩
        · rfl
        · rw [hd] at h; simp at h
      exact cursorOf_nil_of_depth l this

/-- the storages have the same blocks, apart from variables -/
structure Same (S S' : Storage) : Prop where
  cursor : S'.cursor = S.cursor
  length : S'.blocks.length = S.blocks.length
  block : ∀ (b : ℕ) (B : BlockVars), S.blocks[b]? = some B → ∃ B' : BlockVars, S'.blocks[b]? = some B' ∧ B'.name = B.name ∧
    B'.className = B.className ∧ B'.parent = B.parent

theorem Same.refl (S : Storage) : Same S S := ⟨rfl, rfl, fun _ B h => ⟨B, h, rfl, rfl, rfl⟩⟩

theorem Same.trans {S S' S'' : Storage} (h : Same S S') (h' : Same S' S'') : Same S S'' := by
  refine ⟨by rw [h'.cursor, h.cursor], by rw [h'.length, h.length], ?_⟩
  intro b B hB
  obtain ⟨B', hB', a1, a2, a3⟩ := h.block b B hB
  obtain ⟨B'', hB'', b1, b2, b3⟩ := h'.block b B' hB'
  exact ⟨B'', hB'', by rw [b1, a1], by rw [b2, a2], by rw [b3, a3]⟩

theorem Same.parentOf {S S' : Storage} (h : Same S S') (b : ℕ) : S'.parentOf b = S.parentOf b := by
  unfold Storage.parentOf
  rcases hb : S.blocks[b]? with _ | B
  · have : S'.blocks[b]? = none := by
      rw [List.getElem?_eq_none_iff] at hb ⊢; rw [h.length]; exact hb
    rw [this]
  · obtain ⟨B', hB', -, -, h3⟩ := h.block b B hb
    rw [hB', Option.bind_some, Option.bind_some, h3]

theorem Same.isChain {S S' : Storage} (h : Same S S') {b : ℕ} {l : List ℕ} (hl : IsChain S b l) : IsChain S' b l := by
  induction hl with
  | root h' => exact .root (by rw [h.parentOf]; exact h')
  | up h' _ ih => exact .up (by rw [h.parentOf]; exact h') ih

theorem same_addVariableTo {S T : Storage} {c : ℕ} {n : String} {v : Var} (h : S.addVariableTo c n v = some T) : Same S T := by
  obtain ⟨h1, h2⟩ := Vars.addVariableTo_cursor h
  refine ⟨h1, h2, ?_⟩
  intro b B hB
  rw [Vars.addVariableTo_blocks h, hB]
  split
  · exact ⟨_, rfl, rfl, rfl, rfl⟩
  · exact ⟨B, rfl, rfl, rfl, rfl⟩

theorem same_params (H : Host F W) (c : ℕ) (specs : List (ParamSpec F)) :
    ∀ s : DeckState F W × List (String × BlockParam), Same s.1.store (specs.foldl (addParameter H c) s).1.store ∧
      (specs.foldl (addParameter H c) s).1.tree = s.1.tree ∧ (specs.foldl (addParameter H c) s).1.classes = s.1.classes := by
  induction specs with
  | nil => intro s; exact ⟨Same.refl _, rfl, rfl⟩
  | cons p ps ih =>
    intro s
    obtain ⟨h1, h2, h3⟩ := ih (addParameter H c s p)
    rw [List.foldl_cons]
    refine ⟨Same.trans ?_ h1, by rw [h2]; rfl, by rw [h3]; rfl⟩
    simp only [addParameter]
    rcases h : s.1.store.addVariableTo c p.name s.1.heap.length with _ | T
    · exact Same.refl _
    · exact same_addVariableTo h

/-- how the blocks made by factories belong to the blocks of the file; `l` are the blocks around the current one, `cur` is true if
the current one has been dealt with -/
structure TInv (classes : List (String × ClassDesc F)) (m : ℕ → Option ℕ) (D : DeckState F W) : Prop where
  inv : Vars.Inv D.store
  made : ∀ b k, m b = some k ↔ MadeFor D b k
  chain : ∃ l, IsChain D.store D.store.cursor l ∧ D.tree.depth = depthOf (l.map m) ∧ D.tree.cursor = cursorOf (l.map m)
  parents : ∀ (k : ℕ) (B : Block), D.tree.blocks[k]? = some B →
    (∃ Bv : BlockVars, D.store.blocks[B.context]? = some Bv ∧ B.name = Bv.name) ∧
      ∃ l, IsChain D.store B.context (B.context :: l) ∧ B.parent = cursorOf (l.map m)
  children : ∀ (k : ℕ) (B : Block), D.tree.blocks[k]? = some B →
    B.children = (List.range D.tree.blocks.length).filter (fun j => (D.tree.blocks[j]?.bind Block.parent) = some k)
  root : D.tree.root = if D.tree.blocks.length = 0 then none else some 0
  factory : ∀ (b : ℕ) (Bv : BlockVars), D.store.blocks[b]? = some Bv → ((∃ k, m b = some k) ↔ HasFactory classes Bv.className)
  classes : ∀ c, HasFactory D.classes c ↔ HasFactory classes c

/-- the same before a new block has been entered -/
structure Pre (classes : List (String × ClassDesc F)) (m : ℕ → Option ℕ) (l : List ℕ) (D : DeckState F W) : Prop where
  inv : Vars.Inv D.store
  made : ∀ b k, m b = some k ↔ MadeFor D b k
  new : m D.store.cursor = none
  chain : IsChain D.store D.store.cursor (D.store.cursor :: l)
  outside : ∀ b ∈ l, b ≠ D.store.cursor
  depth : D.tree.depth = depthOf (l.map m)
  cursor : D.tree.cursor = cursorOf (l.map m)
  parents : ∀ (k : ℕ) (B : Block), D.tree.blocks[k]? = some B →
    (∃ Bv : BlockVars, D.store.blocks[B.context]? = some Bv ∧ B.name = Bv.name) ∧
      ∃ l, IsChain D.store B.context (B.context :: l) ∧ B.parent = cursorOf (l.map m) ∧ ∀ b ∈ l, b ≠ D.store.cursor
  children : ∀ (k : ℕ) (B : Block), D.tree.blocks[k]? = some B →
    B.children = (List.range D.tree.blocks.length).filter (fun j => (D.tree.blocks[j]?.bind Block.parent) = some k)
  root : D.tree.root = if D.tree.blocks.length = 0 then none else some 0
  factory : ∀ (b : ℕ) (Bv : BlockVars), D.store.blocks[b]? = some Bv → b ≠ D.store.cursor →
    ((∃ k, m b = some k) ↔ HasFactory classes Bv.className)
  classes : ∀ c, HasFactory D.classes c ↔ HasFactory classes c

theorem cursorOf_mem : ∀ (l : List (Option ℕ)) (k : ℕ), cursorOf l = some k → some k ∈ l
  | [], k, h => by simp [cursorOf] at h
  | some j :: l, k, h => by simp only [cursorOf, Option.some.injEq] at h; simp [h]
  | none :: l, k, h => by
      have := cursorOf_mem l k h
      simp [this]

theorem getClass_factory (classes : List (String × ClassDesc F)) (D : DeckState F W)
    (hc : ∀ c, HasFactory D.classes c ↔ HasFactory classes c) (n : String) :
    (∀ c, HasFactory (D.getClass n).2.classes c ↔ HasFactory classes c) ∧
      ((∃ specs, (D.getClass n).1.factory = some specs) ↔ HasFactory classes n) := by
  obtain ⟨l, h1, h2, c, h3, h4⟩ := getClass_snd D n
  have key : ∀ c, HasFactory (D.classes ++ l) c ↔ HasFactory D.classes c := by
    intro c
    unfold HasFactory
    constructor
    · rintro ⟨d, specs, hd, hf⟩
      rw [List.lookup_append] at hd
      rcases hl : D.classes.lookup c with _ | d'
      · rw [hl, Option.none_or] at hd
        obtain ⟨l1, l2, rfl, -⟩ := List.lookup_eq_some_iff.mp hd
        have := h2 (c, d) (by simp)
        simp only at this
        rw [this] at hf
        simp at hf
      · rw [hl, Option.some_or, Option.some.injEq] at hd
        exact ⟨d', specs, rfl, by rw [hd]; exact hf⟩
    · rintro ⟨d, specs, hd, hf⟩
      exact ⟨d, specs, by rw [List.lookup_append, hd, Option.some_or], hf⟩
  constructor
  · intro c
    rw [h1]
    simp only
    rw [key, hc]
  · rw [h4, ← hc, ← key]
    constructor
    · rintro ⟨specs, hs⟩; exact ⟨c, specs, h3, hs⟩
    · rintro ⟨d, specs, hd, hf⟩
      unfold find at h3
      rw [h3, Option.some.injEq] at hd
      exact ⟨specs, by rw [hd]; exact hf⟩

/-- entering a block -/
theorem pre_enter {classes : List (String × ClassDesc F)} {m : ℕ → Option ℕ} {l : List ℕ} {D : DeckState F W}
    (h : Pre classes m l D) (H : Host F W) (n c : String)
    (hn : ∃ Bv : BlockVars, D.store.blocks[D.store.cursor]? = some Bv ∧ Bv.name = n ∧ Bv.className = c) :
    ∃ m', TInv classes m' (enterBlock H D n c) := by
  obtain ⟨Bv, hBv, hBn, hBc⟩ := hn
  obtain ⟨lc, hcl, -⟩ := getClass_snd D c
  obtain ⟨hclass, hfac⟩ := getClass_factory classes D h.classes c
  rcases hf : (D.getClass c).1.factory with _ | specs
  · rw [enterBlock_none H D n c hf]
    refine ⟨m, ?_⟩
    have hnf : ¬ HasFactory classes c := by
      rw [← hfac, hf]; simp
    have e1 : (D.getClass c).2.store = D.store := by rw [hcl]
    have e2 : (D.getClass c).2.tree = D.tree := by rw [hcl]
    constructor
    · show Vars.Inv (D.getClass c).2.store
      rw [e1]; exact h.inv
    · intro b k
      rw [h.made]
      unfold MadeFor
      show _ ↔ ∃ B, (D.getClass c).2.tree.blocks[k]? = some B ∧ B.context = b
      rw [e2]
    · refine ⟨D.store.cursor :: l, ?_, ?_, ?_⟩
      · show IsChain (D.getClass c).2.store (D.getClass c).2.store.cursor _
        rw [e1]; exact h.chain
      · show ((D.getClass c).2.tree.moveDown).depth = _
        rw [e2, List.map_cons, h.new]
        simp only [BlockTree.moveDown, depthOf, h.depth]
        rcases depthOf (l.map m) with _ | ⟨d, ds⟩ <;> rfl
      · show (D.getClass c).2.tree.cursor = _
        rw [e2, List.map_cons, h.new]
        exact h.cursor
    · intro k B hB
      change (D.getClass c).2.tree.blocks[k]? = some B at hB
      rw [e2] at hB
      show (∃ Bv : BlockVars, (D.getClass c).2.store.blocks[B.context]? = some Bv ∧ _) ∧
        ∃ l, IsChain (D.getClass c).2.store _ _ ∧ _
      rw [e1]
      obtain ⟨a, l', b1, b2, -⟩ := h.parents k B hB
      exact ⟨a, l', b1, b2⟩
    · intro k B hB
      change (D.getClass c).2.tree.blocks[k]? = some B at hB
      show B.children = (List.range (D.getClass c).2.tree.blocks.length).filter
        (fun j => ((D.getClass c).2.tree.blocks[j]?.bind Block.parent) = some k)
      rw [e2] at hB ⊢
      exact h.children k B hB
    · show (D.getClass c).2.tree.root = if (D.getClass c).2.tree.blocks.length = 0 then none else some 0
      rw [e2]; exact h.root
    · intro b Bv' hb
      change (D.getClass c).2.store.blocks[b]? = some Bv' at hb
      rw [e1] at hb
      by_cases hbc : b = D.store.cursor
      · subst hbc
        rw [hBv, Option.some.injEq] at hb
        subst hb
        rw [hBc]
        simp only [h.new, reduceCtorEq, exists_false, false_iff]
        exact hnf
      · exact h.factory b Bv' hb hbc
    · exact hclass
  · rw [enterBlock_some H D n c specs hf]
    have hyf : HasFactory classes c := hfac.mp ⟨specs, hf⟩
    have e1 : (D.getClass c).2.store = D.store := by rw [hcl]
    have e2 : (D.getClass c).2.tree = D.tree := by rw [hcl]
    obtain ⟨hs, ht, hcs⟩ := same_params H (D.getClass c).2.store.cursor specs ((D.getClass c).2, [])
    have hinv : Vars.Inv (specs.foldl (addParameter H (D.getClass c).2.store.cursor) ((D.getClass c).2, [])).1.store := by
      clear hs ht hcs
      have : ∀ (specs : List (ParamSpec F)) (s : DeckState F W × List (String × BlockParam)), Vars.Inv s.1.store →
          Vars.Inv (specs.foldl (addParameter H (D.getClass c).2.store.cursor) s).1.store := by
        intro specs
        induction specs with
        | nil => intro s hs; exact hs
        | cons p ps ih =>
          intro s hs
          refine ih _ ?_
          simp only [addParameter]
          rcases hp : s.1.store.addVariableTo (D.getClass c).2.store.cursor p.name s.1.heap.length with _ | T
          · exact hs
          · exact Vars.inv_addVariableTo hs hp
      exact this specs _ (by rw [e1]; exact h.inv)
    generalize hE : specs.foldl (addParameter H (D.getClass c).2.store.cursor) ((D.getClass c).2, []) = E at *
    simp only [e1] at hs ⊢
    rw [e2] at ht
    set K := D.tree.blocks.length with hK
    set b₀ := D.store.cursor with hb₀
    -- the new map
    refine ⟨fun b => if b = b₀ then some K else m b, ?_⟩
    have hmap : ∀ l' : List ℕ, (∀ b ∈ l', b ≠ b₀) → l'.map (fun b => if b = b₀ then some K else m b) = l'.map m := by
      intro l' hl'
      exact List.map_congr_left fun b hb => by rw [if_neg (hl' b hb)]
    -- the new tree
    have hbl : ∀ (k : ℕ) (B : Block), (E.1.tree.addChild ⟨n, b₀, none, [], E.2⟩).blocks[k]? = some B ↔
        (k = K ∧ B = ⟨n, b₀, D.tree.cursor, [], E.2⟩) ∨
        (∃ A, D.tree.blocks[k]? = some A ∧ B = if D.tree.cursor = some k then { A with children := A.children ++ [K] } else A) := by
      intro k B
      rw [ht]
      obtain ⟨mid, hmid, hlen, hget⟩ : ∃ mid : List Block, (D.tree.addChild ⟨n, b₀, none, [], E.2⟩).blocks =
          mid ++ [⟨n, b₀, D.tree.cursor, [], E.2⟩] ∧ mid.length = K ∧ ∀ j : ℕ, mid[j]? =
          D.tree.blocks[j]?.map (fun A => if D.tree.cursor = some j then { A with children := A.children ++ [K] } else A) := by
        unfold BlockTree.addChild
        rcases hcur : D.tree.cursor with _ | cc
        · exact ⟨D.tree.blocks, rfl, rfl, by simp⟩
        · refine ⟨_, rfl, by simp [hK], ?_⟩
          intro j
          simp only [Vars.modify_get]
          split
          · rename_i hj; subst hj; simp [hK]
          · rename_i hj
            have : ¬ (cc = j) := by tauto
            simp [this]
      rw [hmid, List.getElem?_append, hlen]
      split
      · rename_i hk
        rw [hget]
        simp only [Option.map_eq_some_iff]
        constructor
        · rintro ⟨A, hA, hB⟩; exact Or.inr ⟨A, hA, hB.symm⟩
        · rintro (⟨rfl, -⟩ | ⟨A, hA, hB⟩)
          · omega
          · exact ⟨A, hA, hB.symm⟩
      · rename_i hk
        have hnone : D.tree.blocks[k]? = none := by rw [List.getElem?_eq_none_iff]; omega
        constructor
        · intro hB
          left
          have hk0 : k - K = 0 := by
            by_contra hne
            rw [List.getElem?_eq_none (by simp; omega)] at hB
            simp at hB
          rw [hk0] at hB
          simp only [List.getElem?_cons_zero, Option.some.injEq] at hB
          exact ⟨by omega, hB.symm⟩
        · rintro (⟨rfl, rfl⟩ | ⟨A, hA, -⟩)
          · simp
          · rw [hnone] at hA; simp at hA
    have hlen' : (E.1.tree.addChild ⟨n, b₀, none, [], E.2⟩).blocks.length = K + 1 := by
      rw [ht]
      unfold BlockTree.addChild
      rcases D.tree.cursor with _ | c <;> simp [hK]
    have hmnew : ∀ b k, m b = some k → b ≠ b₀ := by
      intro b k hbk hb
      rw [hb, h.new] at hbk; simp at hbk
    constructor
    · exact hinv
    · intro b k
      show _ ↔ ∃ B, (E.1.tree.addChild ⟨n, b₀, none, [], E.2⟩).blocks[k]? = some B ∧ B.context = b
      simp only [hbl]
      by_cases hb : b = b₀
      · subst hb
        simp only [if_true, Option.some.injEq]
        constructor
        · rintro rfl
          exact ⟨_, Or.inl ⟨rfl, rfl⟩, rfl⟩
        · rintro ⟨B, (⟨rfl, -⟩ | ⟨A, hA, rfl⟩), hc⟩
          · rfl
          · have : A.context = b₀ := by split at hc <;> exact hc
            have := (h.made b₀ k).mpr ⟨A, hA, this⟩
            rw [h.new] at this; simp at this
      · simp only [if_neg hb]
        rw [h.made]
        constructor
        · rintro ⟨A, hA, hc⟩
          exact ⟨_, Or.inr ⟨A, hA, rfl⟩, by split <;> exact hc⟩
        · rintro ⟨B, (⟨rfl, rfl⟩ | ⟨A, hA, rfl⟩), hc⟩
          · exact absurd hc.symm hb
          · exact ⟨A, hA, by split at hc <;> exact hc⟩
    · refine ⟨b₀ :: l, ?_, ?_, ?_⟩
      · show IsChain E.1.store E.1.store.cursor _
        rw [hs.cursor]
        exact hs.isChain h.chain
      · show (E.1.tree.addChild _).depth = _
        rw [List.map_cons, if_pos rfl, hmap l h.outside]
        simp only [BlockTree.addChild, depthOf, ht, h.depth]
      · show (E.1.tree.addChild _).cursor = _
        rw [List.map_cons, if_pos rfl]
        simp only [BlockTree.addChild, cursorOf, ht, hK]
    · intro k B hB
      change (E.1.tree.addChild ⟨n, b₀, none, [], E.2⟩).blocks[k]? = some B at hB
      rcases (hbl k B).mp hB with ⟨rfl, rfl⟩ | ⟨A, hA, rfl⟩
      · constructor
        · obtain ⟨Bv', hBv', h1, -⟩ := hs.block _ Bv hBv
          exact ⟨Bv', hBv', by rw [h1, hBn]⟩
        · refine ⟨l, hs.isChain h.chain, ?_⟩
          rw [hmap l h.outside]
          exact h.cursor
      · obtain ⟨⟨Bv', hBv', hname⟩, l', b1, b2, b3⟩ := h.parents k A hA
        have hctx : (if D.tree.cursor = some k then { A with children := A.children ++ [K] } else A).context = A.context := by
          split <;> rfl
        have hpar : (if D.tree.cursor = some k then { A with children := A.children ++ [K] } else A).parent = A.parent := by
          split <;> rfl
        have hnam : (if D.tree.cursor = some k then { A with children := A.children ++ [K] } else A).name = A.name := by
          split <;> rfl
        rw [hctx, hpar, hnam]
        obtain ⟨Bv'', hBv'', h1, -⟩ := hs.block _ Bv' hBv'
        exact ⟨⟨Bv'', hBv'', by rw [h1, hname]⟩, l', hs.isChain b1, by rw [hmap l' b3]; exact b2⟩
    · intro k B hB
      change (E.1.tree.addChild ⟨n, b₀, none, [], E.2⟩).blocks[k]? = some B at hB
      show B.children = (List.range (E.1.tree.addChild ⟨n, b₀, none, [], E.2⟩).blocks.length).filter
        (fun j => ((E.1.tree.addChild ⟨n, b₀, none, [], E.2⟩).blocks[j]?.bind Block.parent) = some k)
      have hpar : ∀ j, j < K → ((E.1.tree.addChild ⟨n, b₀, none, [], E.2⟩).blocks[j]?.bind Block.parent) =
          (D.tree.blocks[j]?.bind Block.parent) := by
        intro j hj
        have hA : D.tree.blocks[j]? = some D.tree.blocks[j] := List.getElem?_eq_getElem (by omega)
        have := (hbl j _).mpr (Or.inr ⟨_, hA, rfl⟩)
        rw [this, hA, Option.bind_some, Option.bind_some]
        split <;> rfl
      have hparK : ((E.1.tree.addChild ⟨n, b₀, none, [], E.2⟩).blocks[K]?.bind Block.parent) = D.tree.cursor := by
        rw [(hbl K _).mpr (Or.inl ⟨rfl, rfl⟩)]; rfl
      rw [hlen', List.range_succ, List.filter_append]
      have hfilt : (List.range K).filter
          (fun j => ((E.1.tree.addChild ⟨n, b₀, none, [], E.2⟩).blocks[j]?.bind Block.parent) = some k) =
          (List.range K).filter (fun j => (D.tree.blocks[j]?.bind Block.parent) = some k) := by
        apply List.filter_congr
        intro j hj
        rw [hpar j (List.mem_range.mp hj)]
      rw [hfilt]
      have hlast : [K].filter (fun j => ((E.1.tree.addChild ⟨n, b₀, none, [], E.2⟩).blocks[j]?.bind Block.parent) = some k) =
          if D.tree.cursor = some k then [K] else [] := by
        rw [List.filter_singleton, hparK]
        split <;> simp_all
      rw [hlast]
      rcases (hbl k B).mp hB with ⟨rfl, rfl⟩ | ⟨A, hA, rfl⟩
      · -- nothing has the new block as parent
        have hcurK : D.tree.cursor ≠ some K := by
          rw [h.cursor]
          intro hc
          have := cursorOf_mem _ _ hc
          obtain ⟨b, hb, hbm⟩ := List.mem_map.mp this
          obtain ⟨B, hB, -⟩ := (h.made b K).mp hbm
          have := (List.getElem?_eq_some_iff.mp hB).1
          omega
        rw [if_neg hcurK]
        simp only [List.append_nil]
        symm
        rw [List.filter_eq_nil_iff]
        intro j hj
        simp only [decide_eq_true_eq]
        intro hc
        have hj' := List.mem_range.mp hj
        have hA : D.tree.blocks[j]? = some D.tree.blocks[j] := List.getElem?_eq_getElem (by omega)
        obtain ⟨-, l', -, b2, -⟩ := h.parents j _ hA
        rw [hA, Option.bind_some, b2] at hc
        have := cursorOf_mem _ _ hc
        obtain ⟨b, hb, hbm⟩ := List.mem_map.mp this
        obtain ⟨B, hB, -⟩ := (h.made b K).mp hbm
        have := (List.getElem?_eq_some_iff.mp hB).1
        omega
      · have := h.children k A hA
        by_cases hck : D.tree.cursor = some k
        · rw [if_pos hck, if_pos hck]; simp only; rw [this]
        · rw [if_neg hck, if_neg hck, this, List.append_nil]
    · show (E.1.tree.addChild _).root = if (E.1.tree.addChild _).blocks.length = 0 then none else some 0
      rw [hlen', if_neg (by omega)]
      simp only [BlockTree.addChild, ht, h.root]
      by_cases h0 : D.tree.blocks.length = 0
      · rw [if_pos h0]; simp only [h0]
      · rw [if_neg h0]
    · intro b Bv' hb
      change E.1.store.blocks[b]? = some Bv' at hb
      have hblt : b < D.store.blocks.length := by
        rw [← hs.length]; exact (List.getElem?_eq_some_iff.mp hb).1
      obtain ⟨B', hB', -, h2, -⟩ := hs.block b _ (List.getElem?_eq_getElem hblt)
      rw [hb, Option.some.injEq] at hB'
      subst hB'
      rw [h2]
      by_cases hbc : b = b₀
      · subst hbc
        rw [List.getElem?_eq_getElem hblt, Option.some.injEq] at hBv
        rw [hBv, hBc]
        simp only [if_true, Option.some.injEq, exists_eq', true_iff]
        exact hyf
      · simp only [if_neg hbc]
        exact h.factory b _ (List.getElem?_eq_getElem hblt) hbc
    · intro cc
      show HasFactory E.1.classes cc ↔ _
      rw [hcs]
      exact hclass cc

end Schnek.Lemma.Deck
