import Verif.Lemma.DeckRun
import Verif.Spec.BlockNesting

namespace Schnek.Lemma.Deck

open Schnek.Deck Schnek.Deck.Grammar Schnek.Spec Relation DeckState

variable {F W : Type}

/-- restrictions are those of the program, and are kept by all blocks -/
structure BInv (classes : List (String × ClassDesc F)) (r : Bool) (D : DeckState F W) : Prop where
  restr : D.restr = r
  allows : ∀ p c, D.hasChild p c = true ↔ Allows classes p c
  nest : r = true → ∀ (b p : ℕ) (B A : BlockVars), D.store.blocks[b]? = some B → B.parent = some p → D.store.blocks[p]? = some A →
    Allows classes A.className B.className

theorem find_lookup {α : Type} (l : List (String × α)) (n : String) : find l n = l.lookup n := rfl

theorem hasChild_initial (D : DeckState F W) (p c : String) : D.hasChild p c = true ↔ Allows D.classes p c := by
  unfold hasChild Allows
  rw [find_lookup]
  rcases D.classes.lookup p with _ | d <;> simp

theorem hasChild_getClass (D : DeckState F W) (n p c : String) : (D.getClass n).2.hasChild p c = D.hasChild p c := by
  unfold getClass
  rcases h : find D.classes n with _ | d
  · simp only [hasChild]
    rw [Vars.find_append]
    rcases h' : find D.classes p with _ | d
    · by_cases hp : p = n <;> simp [hp]
    · simp
  · rfl

theorem params_restr (H : Host F W) (c : ℕ) (specs : List (ParamSpec F)) :
    ∀ s : DeckState F W × List (String × BlockParam), (specs.foldl (addParameter H c) s).1.restr = s.1.restr := by
  induction specs with
  | nil => intro s; rfl
  | cons p ps ih => intro s; rw [List.foldl_cons, ih]; rfl

theorem enterBlock_restr (H : Host F W) (D : DeckState F W) (n c : String) :
    (enterBlock H D n c).restr = D.restr ∧ ∀ p q, (enterBlock H D n c).hasChild p q = D.hasChild p q := by
  have hg : (D.getClass c).2.restr = D.restr := by
    unfold getClass; split <;> rfl
  rcases hf : (D.getClass c).1.factory with _ | specs
  · rw [enterBlock_none H D n c hf]
    exact ⟨hg, fun p q => hasChild_getClass D c p q⟩
  · rw [enterBlock_some H D n c specs hf]
    refine ⟨by rw [← hg]; exact params_restr H _ specs _, fun p q => ?_⟩
    rw [← hasChild_getClass D c p q]
    have hc := (same_params H (D.getClass c).2.store.cursor specs ((D.getClass c).2, [])).2.2
    unfold hasChild
    simp only [hc]

theorem same_back {S S' : Storage} (h : Same S S') {b : ℕ} {B' : BlockVars} (hb : S'.blocks[b]? = some B') :
    ∃ B : BlockVars, S.blocks[b]? = some B ∧ B'.name = B.name ∧ B'.className = B.className ∧ B'.parent = B.parent := by
  have hlt := (List.getElem?_eq_some_iff.mp hb).1
  rw [h.length] at hlt
  obtain ⟨B'', h1, h2⟩ := h.block b _ (List.getElem?_eq_getElem hlt)
  rw [hb, Option.some.injEq] at h1
  subst h1
  exact ⟨_, List.getElem?_eq_getElem hlt, h2⟩

theorem binv_same {classes : List (String × ClassDesc F)} {r : Bool} {D D' : DeckState F W} (h : BInv classes r D)
    (hs : Same D.store D'.store) (hr : D'.restr = D.restr) (hc : ∀ p q, D'.hasChild p q = D.hasChild p q) : BInv classes r D' := by
  refine ⟨by rw [hr, h.restr], fun p c => by rw [hc]; exact h.allows p c, fun ht b p B' A' hB hp hA => ?_⟩
  obtain ⟨B, h1, -, h2, h3⟩ := same_back hs hB
  obtain ⟨A, g1, -, g2, -⟩ := same_back hs hA
  rw [h2, g2]
  exact h.nest ht b p B A h1 (by rw [← h3]; exact hp) g1

theorem declare_restr (H : Host F W) (D : DeckState F W) (t : Ty) (ds) : (D.declare H t ds).2.restr = D.restr := by
  have one : ∀ (D : DeckState F W) d, (storeOne H t D d).2.restr = D.restr := by
    intro D d
    unfold storeOne
    repeat' (first | split | rfl)
  unfold declare
  split
  · rfl
  · rename_i l hl
    clear hl
    generalize l.reverse = l
    induction l generalizing D with
    | nil => rfl
    | cons a l ih =>
      rw [chain_cons]
      split
      · rw [ih, one]
      · exact one D a

theorem update_restr (H : Host F W) (D : DeckState F W) (n : String) (e : Grammar.Expression F) :
    (D.update H n e).2.restr = D.restr := by
  unfold update
  repeat' (first | split | rfl)

theorem binv_step {classes : List (String × ClassDesc F)} {r : Bool} {D : DeckState F W} (h : BInv classes r D) (hD : DInv D)
    (H : Host F W) (s : Stmt F) : BInv classes r (D.step H s).2 := by
  cases s with
  | decl t ds =>
    obtain ⟨-, h2, -, h4⟩ := same_declare H D t ds hD.store
    exact binv_same h h2 (declare_restr H D t ds) (fun p q => by
      show (D.declare H t ds).2.hasChild p q = _
      unfold hasChild; rw [h4])
  | assign n e =>
    obtain ⟨h1, -, h3⟩ := same_update H D n e
    refine binv_same h ?_ (update_restr H D n e) (fun p q => ?_)
    · show Same D.store (D.update H n e).2.store
      rw [h1]; exact Same.refl _
    · show (D.update H n e).2.hasChild p q = _
      unfold hasChild; rw [h3]
  | start c n =>
    show BInv classes r (D.createBlock H c n).2
    unfold DeckState.createBlock
    by_cases hc : (D.restr && !D.hasChild D.currentClass c) = true
    · rw [if_pos hc]; exact h
    · rw [if_neg hc]
      rcases hst : D.store.createBlock n c with _ | st
      · exact h
      · obtain ⟨e1, e2⟩ := enterBlock_restr H { D with store := st } n c
        refine binv_same (D := { D with store := st }) ⟨h.restr, h.allows, fun hr b p B A hB hp hA => ?_⟩
          (enterBlock_same H { D with store := st } n c) e1 e2
        have hA' : ∀ (q : ℕ) (A : BlockVars), D.store.blocks[q]? = some A → ∀ A' : BlockVars, st.blocks[q]? = some A' → A'.className = A.className := by
          intro q A hA A' hA'
          obtain ⟨A'', h1, -, -, -, h2, -⟩ := Vars.createBlock_old hst hA
          rw [hA', Option.some.injEq] at h1
          rw [h1, h2]
        by_cases hb : b < D.store.blocks.length
        · obtain ⟨B0, hB0, -, h2, -, h3, -⟩ := Vars.createBlock_old hst (List.getElem?_eq_getElem hb)
          rw [hB, Option.some.injEq] at hB0
          subst hB0
          have hpl := hD.store.parent b p ⟨_, List.getElem?_eq_getElem hb, by rw [← h2]; exact hp⟩
          have hpl' : p < D.store.blocks.length := by omega
          rw [h3, hA' p _ (List.getElem?_eq_getElem hpl') A hA]
          exact h.nest hr b p _ _ (List.getElem?_eq_getElem hb) (by rw [← h2]; exact hp) (List.getElem?_eq_getElem hpl')
        · rcases Vars.createBlock_cases hst hB with ⟨-, rfl⟩ | ⟨A0, hA0, -⟩
          · simp only [Option.some.injEq] at hp
            subst hp
            have hcur := hD.store.cursor
            rw [hA' _ _ (List.getElem?_eq_getElem hcur) A hA]
            rw [h.restr, hr] at hc
            rw [← h.allows]
            simpa [currentClass, List.getElem?_eq_getElem hcur] using hc
          · exact absurd (List.getElem?_eq_some_iff.mp hA0).1 hb
  | stop =>
    show BInv classes r D.endBlock.2
    unfold endBlock
    split
    · exact h
    · exact ⟨h.restr, h.allows, h.nest⟩

theorem binv_after (P : Program F W) (deck : List (Stmt F)) : BInv P.classes P.restr (P.after deck) := by
  have hb : BInv P.classes P.restr P.begin := by
    obtain ⟨e1, e2⟩ := enterBlock_restr P.host
      (initial P.name P.className P.classes P.restr P.ext P.world P.nextId : DeckState F W) P.name P.className
    refine binv_same (D := initial P.name P.className P.classes P.restr P.ext P.world P.nextId) ⟨rfl, hasChild_initial _, ?_⟩
      (enterBlock_same P.host _ _ _) e1 e2
    intro _ b p B A hB hp
    rcases b with _ | b
    · have : B.parent = none := by
        simp only [initial, Storage.create, List.getElem?_cons_zero, Option.some.injEq] at hB
        rw [← hB]
      rw [this] at hp; cases hp
    · simp [initial, Storage.create] at hB
  have run : ∀ (deck : List (Stmt F)) (D : DeckState F W), BInv P.classes P.restr D → DInv D →
      BInv P.classes P.restr (D.run P.host deck).2 := by
    intro deck
    unfold DeckState.run
    induction deck with
    | nil => intro D h _; exact h
    | cons s ss ih =>
      intro D h hD
      rw [chain_cons]
      split
      · exact ih _ (binv_step h hD P.host s) (dinv_step P.host D s hD)
      · exact binv_step h hD P.host s
  exact run deck P.begin hb (dinv_enterBlock _ _ _ _ (dinv_initial P))

end Schnek.Lemma.Deck
