import Verif.Lemma.SettingsText
import Verif.Props.Blocks

/-!
# Lemmas on setup files that assign the parameters of the root block
-/

namespace Schnek.Lemma.SettingsText

open Schnek.Scanner Schnek.Spec Schnek.Spec.Lexer Schnek.Lemma.Scanner Schnek.Lemma.Lexer
open Schnek.Spec.SettingsText Schnek.Lemma.Diag Schnek.Diagnostic Schnek.NumberText Schnek.Deck Schnek.Lemma.Deck

theorem reads_parameters {l : List (String × ℤ)} (h : ∀ s ∈ l, IsName s.1 ∧ -2 ^ 31 ≤ s.2 ∧ s.2 < 2 ^ 31) :
    Reads (parametersText l) (l.flatMap parameterTokens) := by
  induction l with
  | nil => exact reads_nil
  | cons s l ih =>
    obtain ⟨h1, h2, h3⟩ := h s (by simp)
    exact reads_parameter h1 h2 h3 (ih fun t ht => h t (by simp [ht]))

/-- the statement of a parameter -/
def parameterStmt (s : String × ℤ) : Stmt ℚ := .assign s.1 (numberExpr s.2)

theorem parameter_statement (O : FloatOps ℚ) {s : String × ℤ} (hn : IsName s.1) (h1 : -2 ^ 31 < s.2) (h2 : s.2 < 2 ^ 31) :
    ∃ ts, (parameterTokens s).map (plainMeaning (withText O)) = ts.map some ∧ StmtTokens (parameterStmt s) ts := by
  refine ⟨_, ?_, .assign s.1 (numberExpr s.2)⟩
  have e1 : plainMeaning (withText O) (.identifier, bytes s.1) = some (.expr (.ident s.1)) := by
    show some (DeckToken.expr (Token.ident (textOf (bytes s.1)))) = _
    rw [textOf_bytes hn.2.1]
  have e2 := number_meaning O (n := s.2.natAbs) (by omega)
  unfold parameterTokens numberTokens numberExpr
  by_cases hv : s.2 < 0
  · simp only [if_pos hv, List.map_cons, List.map_nil, List.cons_append, List.nil_append, List.map_append, e1, e2]
    rfl
  · simp only [if_neg hv, List.map_cons, List.map_nil, List.cons_append, List.nil_append, List.map_append, e1, e2]
    rfl

theorem parameters_deck (O : FloatOps ℚ) : ∀ (l : List (String × ℤ)), (∀ s ∈ l, IsName s.1 ∧ -2 ^ 31 < s.2 ∧ s.2 < 2 ^ 31) →
    ∀ toks : List Tok, plainToks toks = l.flatMap parameterTokens →
      ∃ parts, toks = parts.flatten ∧ List.Forall₂ (IsStatement (withText O)) parts (l.map parameterStmt) ∧ ∀ part ∈ parts, part.length ≤ 98 := by
  intro l
  induction l with
  | nil =>
    intro _ toks ht
    have : toks = [] := by simpa [plainToks] using ht
    exact ⟨[], by simp [this], .nil, by simp⟩
  | cons s l ih =>
    intro h toks ht
    rw [List.flatMap_cons] at ht
    unfold plainToks at ht
    obtain ⟨t1, t2, rfl, h1, h2⟩ := List.map_eq_append_iff.mp ht
    obtain ⟨hn, hv1, hv2⟩ := h s (by simp)
    obtain ⟨parts, rfl, hp1, hp2⟩ := ih (fun t ht => h t (by simp [ht])) t2 h2
    obtain ⟨ts, hts, hst⟩ := parameter_statement O hn hv1 hv2
    refine ⟨t1 :: parts, by simp, .cons ⟨ts, ?_, hst⟩ hp1, ?_⟩
    · rw [meaning_plain, ← hts]
      unfold plainToks
      rw [h1]
    · intro part hm
      rcases List.mem_cons.mp hm with rfl | hm
      · have : part.length = (parameterTokens s).length := by rw [← h1, List.length_map]
        rw [this, parameterTokens, numberTokens]
        split <;> simp
      · exact hp2 part hm

/-! ## the root block -/

variable {W : Type}

/-- what is known after the parameters have been added -/
theorem params_declared (H : Host ℚ W) : ∀ (specs : List (ParamSpec ℚ)) (s : DeckState ℚ W × List (String × BlockParam)),
    0 < s.1.store.blocks.length → Vars.Inv s.1.store → (specs.map ParamSpec.name).Nodup → (∀ q ∈ specs, ∀ v, ¬ Declares s.1.store 0 q.name v) →
    let s' := specs.foldl (DeckState.addParameter H 0) s
    s'.1.tree = s.1.tree ∧ (s'.1.store.blocks[0]?.map BlockVars.className = s.1.store.blocks[0]?.map BlockVars.className) ∧
      (∃ t, s'.1.heap = s.1.heap ++ t) ∧ (∀ n v, Declares s.1.store 0 n v → Declares s'.1.store 0 n v) ∧
      ∀ q ∈ specs, ∃ v x id, Declares s'.1.store 0 q.name v ∧ s'.1.heap[v]? = some (DeckState.paramVariable H q x id) := by
  intro specs
  induction specs with
  | nil => intro s _ _ _ _; exact ⟨rfl, rfl, ⟨[], by simp⟩, fun _ _ h => h, by simp⟩
  | cons p ps ih =>
    intro s h0 hI hnd hnew
    rw [List.map_cons, List.nodup_cons] at hnd
    obtain ⟨T, hT⟩ : ∃ T, s.1.store.addVariableTo 0 p.name s.1.heap.length = some T := by
      unfold Storage.addVariableTo
      rcases hv : s.1.store.varOf 0 p.name with _ | v
      · exact ⟨_, rfl⟩
      · exact absurd ((Vars.varOf_iff hI _ _ _).mp hv) (hnew p (by simp) v)
    have hst : (DeckState.addParameter H 0 s p).1.store = T := by
      show (s.1.store.addVariableTo 0 p.name s.1.heap.length).getD s.1.store = T
      rw [hT]; rfl
    have hh : (DeckState.addParameter H 0 s p).1.heap = s.1.heap ++ [DeckState.paramVariable H p s.1.nextExt s.1.nextId] := rfl
    have hdec := Vars.addVariableTo_declares hT
    obtain ⟨-, hlen⟩ := Vars.addVariableTo_cursor hT
    obtain ⟨a1, a2, ⟨t, a3⟩, a4, a5⟩ := ih (DeckState.addParameter H 0 s p) (by rw [hst]; omega) (by rw [hst]; exact Vars.inv_addVariableTo hI hT) hnd.2 (by
      intro q hq v hd
      rw [hst, hdec] at hd
      rcases hd with hd | ⟨-, -, hd, -⟩
      · exact hnew q (by simp [hq]) v hd
      · exact hnd.1 (hd ▸ List.mem_map_of_mem hq))
    rw [hst] at a2 a4
    rw [List.foldl_cons]
    refine ⟨a1, ?_, ⟨_, by rw [a3, hh, List.append_assoc]⟩, fun n v h => a4 n v ((hdec 0 n v).mpr (Or.inl h)), ?_⟩
    · rw [a2, Vars.addVariableTo_blocks hT, if_pos rfl]
      rcases s.1.store.blocks[0]? <;> rfl
    · intro q hq
      rcases List.mem_cons.mp hq with rfl | hq
      · refine ⟨s.1.heap.length, s.1.nextExt, s.1.nextId, a4 _ _ ((hdec _ _ _).mpr (Or.inr ⟨rfl, h0, rfl, rfl⟩)), ?_⟩
        rw [a3, hh, List.append_assoc, List.getElem?_append_right (le_refl _)]
        simp
      · exact a5 q hq

/-- the state before the first statement -/
theorem begin_params (P : Program ℚ W) {d : ClassDesc ℚ} {specs : List (ParamSpec ℚ)} (hd : P.classes.lookup P.className = some d)
    (hf : d.factory = some specs) (hnd : (specs.map ParamSpec.name).Nodup) :
    (∃ B : Block, P.begin.tree.blocks = [B] ∧ B.context = 0 ∧ B.parent = none) ∧
    (∃ Bv, P.begin.store.blocks[0]? = some Bv ∧ Bv.className = P.className) ∧
    ∀ q ∈ specs, ∃ v x id, Declares P.begin.store 0 q.name v ∧ P.begin.heap[v]? = some (DeckState.paramVariable P.host q x id) := by
  unfold Program.begin DeckState.start
  have hg : ((DeckState.initial P.name P.className P.classes P.restr P.ext P.world P.nextId : DeckState ℚ W).getClass P.className) =
      (d, DeckState.initial P.name P.className P.classes P.restr P.ext P.world P.nextId) := by
    unfold DeckState.getClass
    rw [show find (DeckState.initial P.name P.className P.classes P.restr P.ext P.world P.nextId : DeckState ℚ W).classes P.className = some d from hd]
  generalize hI : (DeckState.initial P.name P.className P.classes P.restr P.ext P.world P.nextId : DeckState ℚ W) = I at hg
  have h1 : I.store = Storage.create P.name P.className := by rw [← hI]; rfl
  have h2 : I.tree = BlockTree.empty := by rw [← hI]; rfl
  rw [enterBlock_some P.host I P.name P.className specs (by rw [hg]; exact hf), hg]
  have h3 : I.store.cursor = 0 := by rw [h1]; rfl
  rw [h3]
  obtain ⟨a1, a2, -, -, a5⟩ := params_declared P.host specs (I, []) (by rw [h1]; exact Nat.one_pos) (by rw [h1]; exact Vars.inv_create _ _) hnd (by
    rintro q - v ⟨B, hB, hm⟩
    rw [h1] at hB
    cases hB
    cases hm)
  have hb : ∀ B : Block, (BlockTree.addChild BlockTree.empty B).blocks = [{ B with parent := none }] := fun B => rfl
  refine ⟨⟨_, by rw [a1, h2]; exact hb _, rfl, rfl⟩, ?_, a5⟩
  · rw [h1] at a2
    obtain ⟨Bv, hB, hc⟩ := Option.map_eq_some_iff.mp a2
    exact ⟨Bv, hB, hc⟩

/-! ## running the statements -/

/-- a variable without value can only be read -/
def OnlyRead (D : DeckState ℚ W) : Prop := ∀ x ∈ D.heap, x.fixed = false → x.readOnly = true

theorem params_onlyRead (H : Host ℚ W) (c : ℕ) (specs : List (ParamSpec ℚ)) :
    ∀ s : DeckState ℚ W × List (String × BlockParam), OnlyRead s.1 → OnlyRead (specs.foldl (DeckState.addParameter H c) s).1 := by
  induction specs with
  | nil => intro s h; exact h
  | cons p ps ih =>
    intro s h
    rw [List.foldl_cons]
    refine ih (DeckState.addParameter H c s p) ?_
    intro x hx hf
    rcases List.mem_append.mp hx with hx | hx
    · exact h x hx hf
    · rw [List.mem_singleton.mp hx] at hf ⊢
      unfold DeckState.paramVariable at hf ⊢
      split
      · rfl
      · split
        · rfl
        · simp_all [Variable.ofValue]

theorem begin_onlyRead (P : Program ℚ W) : OnlyRead P.begin := by
  unfold Program.begin DeckState.start
  generalize hI : (DeckState.initial P.name P.className P.classes P.restr P.ext P.world P.nextId : DeckState ℚ W) = I
  have h0 : OnlyRead I := by
    subst hI
    intro x hx
    cases hx
  obtain ⟨l, h, -⟩ := getClass_snd I P.className
  rcases hf : (I.getClass P.className).1.factory with _ | specs
  · rw [enterBlock_none P.host I P.name P.className hf, h]
    exact h0
  · rw [enterBlock_some P.host I P.name P.className specs hf]
    exact params_onlyRead P.host (I.getClass P.className).2.store.cursor specs ((I.getClass P.className).2, []) (by rw [h]; exact h0)

theorem number_ty (H : Host ℚ W) (D : DeckState ℚ W) {v : ℤ} {e : Expr ℚ W} (h : (numberExpr v).build (D.env H) = some e) : e.ty = .int := by
  unfold numberExpr at h
  split at h
  · cases h; rfl
  · cases h; rfl

theorem name_written {n : String} (hn : IsName n) : Written ':' [n] n := by
  refine ⟨by simp, by simp, ?_⟩
  intro m hm hc
  rw [List.mem_singleton.mp hm] at hc
  obtain ⟨⟨a, w, hw, ha, hw'⟩, -⟩ := hn
  have : (58 : Byte) ∈ bytes n := List.mem_map.mpr ⟨':', hc, by decide⟩
  rw [hw] at this
  rcases List.mem_cons.mp this with h | h
  · rw [← h] at ha; revert ha; decide
  · have := hw' _ h; revert this; decide

/-- a parameter is assigned -/
theorem step_parameter (H : Host ℚ W) (D : DeckState ℚ W) (hD : DInv D) (hcur : D.store.cursor = 0) {s : String × ℤ} (hn : IsName s.1)
    (h1 : -2 ^ 31 < s.2) (h2 : s.2 < 2 ^ 31) {v : ℕ} {x : Variable ℚ W} (hv : Declares D.store 0 s.1 v) (hx : D.heap[v]? = some x)
    (hty : x.ty = .int) (hro : x.readOnly = false) :
    D.step H (parameterStmt s) = (true, { D with
      heap := D.heap.set v { x with value := .int s.2, expression := none, fixed := true, initialised := true, id := D.nextId }
      nextId := D.nextId + 1 }) := by
  obtain ⟨e, he, hc, hev⟩ := build_number H D h1 h2
  have hget : D.store.getVariable D.store.cursor s.1 = some v := by
    rw [hcur, Vars.getVariable_iff hD.store 0 (hcur ▸ hD.store.cursor) [s.1] s.1 (name_written hn)]
    exact ⟨0, .refl, ⟨v, hv⟩, fun e' h _ => h, .var hv⟩
  have hl : DeckState.lhsType x = .int := by
    unfold DeckState.lhsType
    obtain ⟨t1, t2⟩ := hD.typed v x hx
    by_cases hf : x.fixed = true
    · rw [if_pos hf, t1 hf, hty]
    · rw [if_neg hf]
      obtain ⟨e', he', hty'⟩ := t2 (by simpa using hf)
      rw [he']; exact hty'.trans hty
  have hp : DeckState.promoteAssign (DeckState.lhsType x) e = e := by
    unfold DeckState.promoteAssign
    rw [hl, if_pos (number_ty H D he)]
  show D.update H s.1 (numberExpr s.2) = _
  simp only [DeckState.update, he, hget, hx, hp, DeckState.evaluate, hc, hev, if_true, Option.map_some]
  unfold Variable.assign
  rw [if_neg (by rw [hty]; exact fun h => h rfl), hro, if_neg (by simp)]
  rfl

/-- all of them are assigned -/
theorem run_parameters (H : Host ℚ W) : ∀ (l : List (String × ℤ)) (D : DeckState ℚ W), DInv D → NoRefs D → OnlyRead D → D.store.cursor = 0 →
    (∀ s ∈ l, IsName s.1 ∧ -2 ^ 31 < s.2 ∧ s.2 < 2 ^ 31) → (l.map Prod.fst).Nodup →
    (∀ s ∈ l, ∃ v x, Declares D.store 0 s.1 v ∧ D.heap[v]? = some x ∧ x.ty = .int ∧ x.readOnly = false) →
    ∃ D', D.run H (l.map parameterStmt) = (true, D') ∧ DInv D' ∧ NoRefs D' ∧ OnlyRead D' ∧ D'.store = D.store ∧ D'.tree = D.tree ∧
      (∀ s ∈ l, ∀ v, Declares D.store 0 s.1 v → ∃ x, D'.heap[v]? = some x ∧ x.value = .int s.2 ∧ x.fixed = true ∧ x.initialised = true) ∧
      ∀ v, (∀ s ∈ l, ¬ Declares D.store 0 s.1 v) → D'.heap[v]? = D.heap[v]? := by
  intro l
  induction l with
  | nil => intro D hD hR hO _ _ _ _; exact ⟨D, rfl, hD, hR, hO, rfl, rfl, by simp, fun _ _ => rfl⟩
  | cons s l ih =>
    intro D hD hR hO hcur hl hnd hex
    obtain ⟨hn1, hn2⟩ := List.nodup_cons.mp hnd
    obtain ⟨v, x, hv, hx, hty, hro⟩ := hex s (by simp)
    obtain ⟨g1, g2, g3⟩ := hl s (by simp)
    have hstep := step_parameter H D hD hcur g1 g2 g3 hv hx hty hro
    have hI := dinv_step H D (parameterStmt s) hD
    rw [hstep] at hI
    have hvlt := (List.getElem?_eq_some_iff.mp hx).1
    generalize hx' : ({ x with value := .int s.2, expression := none, fixed := true, initialised := true, id := D.nextId } : Variable ℚ W) = x'
      at hstep hI
    generalize hD1 : ({ D with heap := D.heap.set v x', nextId := D.nextId + 1 } : DeckState ℚ W) = D1 at hstep hI
    have e1 : D1.store = D.store := by rw [← hD1]
    have e2 : D1.tree = D.tree := by rw [← hD1]
    have e3 : D1.heap = D.heap.set v x' := by rw [← hD1]
    have huniq : ∀ t ∈ l, ∀ w, Declares D.store 0 t.1 w → w ≠ v := by
      rintro t ht w hw rfl
      exact hn1 ((hD.once _ _ _ _ _ hv hw).2 ▸ List.mem_map_of_mem ht)
    obtain ⟨D', a1, a2, a3, a4, a5, a6, a7, a8⟩ := ih D1 hI (by
      intro y hy e he
      rw [e3] at hy
      rcases List.mem_or_eq_of_mem_set hy with hy | rfl
      · exact hR y hy e he
      · rw [← hx'] at he; cases he) (by
      intro y hy hf
      rw [e3] at hy
      rcases List.mem_or_eq_of_mem_set hy with hy | rfl
      · exact hO y hy hf
      · rw [← hx'] at hf; cases hf) (by rw [e1]; exact hcur) (fun t ht => hl t (by simp [ht])) hn2 (by
      intro t ht
      obtain ⟨w, y, hw, hy, b1, b2⟩ := hex t (by simp [ht])
      refine ⟨w, y, by rw [e1]; exact hw, ?_, b1, b2⟩
      rw [e3, List.getElem?_set_ne (huniq t ht w hw).symm]
      exact hy)
    rw [e1] at a5 a7 a8
    refine ⟨D', ?_, a2, a3, a4, a5, a6.trans e2, ?_, ?_⟩
    · show DeckState.chain (DeckState.step H) (parameterStmt s :: l.map parameterStmt) D = _
      rw [chain_cons, hstep]
      exact a1
    · intro t ht w hw
      rcases List.mem_cons.mp ht with rfl | ht
      · have : w = v := by
          have p1 := (Vars.varOf_iff hD.store _ _ _).mpr hw
          rw [(Vars.varOf_iff hD.store _ _ _).mpr hv] at p1
          exact (Option.some.inj p1).symm
        subst this
        refine ⟨x', ?_, by rw [← hx'], by rw [← hx'], by rw [← hx']⟩
        rw [a8 w fun u hu hd => huniq u hu w hd rfl, e3, List.getElem?_set_self hvlt]
      · exact a7 t ht w hw
    · intro w hw
      rw [a8 w fun u hu => hw u (by simp [hu]), e3, List.getElem?_set_ne]
      rintro rfl
      exact hw s (by simp) hv

end Schnek.Lemma.SettingsText
