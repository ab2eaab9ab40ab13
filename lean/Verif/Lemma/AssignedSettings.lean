import Verif.Spec.AssignedSettings
import Verif.Lemma.TypedSettings
import Verif.Lemma.SettingsParams
import Verif.Lemma.NumberText

/-!
# Lemmas on setup files that assign integers, floating point numbers and strings to the parameters of the root block
-/

namespace Schnek.Lemma.SettingsText

open Schnek.Scanner Schnek.Spec Schnek.Spec.Lexer Schnek.Lemma.Scanner Schnek.Lemma.Lexer
open Schnek.Spec.SettingsText Schnek.Lemma.Diag Schnek.Diagnostic Schnek.NumberText Schnek.Deck Schnek.Lemma.Deck

/-- the tokens of an assignment -/
def assignedTokens (s : String × Val ℚ) : List (Kind × List Byte) :=
  (.identifier, bytes s.1) :: (.equal, []) :: (typedValue s.2 ++ [(.semicolon, [])])

theorem reads_assigned {s : String × Val ℚ} (hn : IsName s.1) (hv : CanBeStored s.2) {r : List Byte}
    {p : List (Kind × List Byte)} (hr : Reads r p) : Reads (assignedText s ++ r) (assignedTokens s ++ p) := by
  obtain ⟨name, v | x | t⟩ := s
  · exact reads_parameter (s := (name, v)) hn hv.1.le hv.2 hr
  · have r1 := reads_named hn (reads_floatValue hv.1 hv.2 (reads_end hr))
    have e : assignedText (name, .float x) ++ r = bytes name ++ 32 :: 61 :: 32 :: (bytes (showFloat x) ++ 59 :: 10 :: r) := by
      show (bytes name ++ bytes " = " ++ bytes (showFloat x) ++ bytes ";\n") ++ r = _
      rw [show bytes " = " = [32, 61, 32] by decide +kernel, show bytes ";\n" = [59, 10] by decide +kernel]
      simp
    rw [e]
    simpa [assignedTokens, typedValue] using r1
  · have hlen : (bytes t).length = t.length := by rw [bytes, List.length_map, String.length_toList]
    have r1 := reads_named hn (reads_text hv.1 (by rw [hlen]; exact hv.2.2) (reads_end hr))
    have e : assignedText (name, .str t) ++ r = bytes name ++ 32 :: 61 :: 32 :: (34 :: bytes t ++ 34 :: 59 :: 10 :: r) := by
      show (bytes name ++ bytes " = \"" ++ bytes t ++ bytes "\";\n") ++ r = _
      rw [show bytes " = \"" = [32, 61, 32, 34] by decide +kernel, show bytes "\";\n" = [34, 59, 10] by decide +kernel]
      simp
    rw [e]
    simpa [assignedTokens, typedValue] using r1

theorem reads_assignedSettings {l : List (String × Val ℚ)} (h : ∀ s ∈ l, IsName s.1 ∧ CanBeStored s.2) :
    Reads (assignedSettingsText l) (l.flatMap assignedTokens) := by
  induction l with
  | nil => exact reads_nil
  | cons s l ih =>
    obtain ⟨h1, h2⟩ := h s (by simp)
    exact reads_assigned h1 h2 (ih fun t ht => h t (by simp [ht]))

/-! ## the statements -/

/-- the statement of an assignment -/
def assignedStmt (s : String × Val ℚ) : Stmt ℚ := .assign s.1 (typedExpr s.2)

theorem assigned_statement (O : FloatOps ℚ) {s : String × Val ℚ} (hn : IsName s.1) (hv : CanBeStored s.2) :
    ∃ ts, (assignedTokens s).map (plainMeaning (withText O)) = ts.map some ∧ StmtTokens (assignedStmt s) ts := by
  obtain ⟨name, v | x | t⟩ := s
  · exact parameter_statement O (s := (name, v)) hn hv.1 hv.2
  · refine ⟨_, ?_, .assign name (typedExpr (.float x))⟩
    have e1 : plainMeaning (withText O) (.identifier, bytes name) = some (.expr (.ident name)) := by
      show some (DeckToken.expr (Token.ident (textOf (bytes name)))) = _
      rw [textOf_bytes hn.2.1]
    simp only [assignedTokens, typedValue, typedExpr]
    unfold floatTokens floatExpr
    rcases showFloat_cases hv.2 with ⟨h, -, -⟩ | ⟨h, -, -⟩
    · have e2 := float_meaning O (neg_pos.mpr h) (double_neg hv.1)
      simp only [if_pos h, List.map_cons, List.map_nil, List.cons_append, List.nil_append, e1, e2]
      rfl
    · have e2 := float_meaning O h hv.1
      simp only [if_neg (not_lt.mpr h.le), List.map_cons, List.map_nil, List.cons_append, List.nil_append, e1, e2]
      rfl
  · refine ⟨_, ?_, .assign name (typedExpr (.str t))⟩
    have e1 : plainMeaning (withText O) (.identifier, bytes name) = some (.expr (.ident name)) := by
      show some (DeckToken.expr (Token.ident (textOf (bytes name)))) = _
      rw [textOf_bytes hn.2.1]
    have e2 : plainMeaning (withText O) (.string, bytes t) = some (.expr (.lit (.str t))) := by
      show some (DeckToken.expr (Token.lit (.str (textOf (bytes t))))) = _
      rw [textOf_bytes hv.2.1]
    simp only [assignedTokens, typedValue, List.map_cons, List.map_nil, List.cons_append, List.nil_append, e1, e2]
    rfl

/-- the tokens of a list of settings are its statements -/
theorem assigned_deck (O : FloatOps ℚ) : ∀ (l : List (String × Val ℚ)), (∀ s ∈ l, IsName s.1 ∧ CanBeStored s.2) →
    ∀ toks : List Tok, plainToks toks = l.flatMap assignedTokens →
      ∃ parts, toks = parts.flatten ∧ List.Forall₂ (IsStatement (withText O)) parts (l.map assignedStmt) ∧ ∀ part ∈ parts, part.length ≤ 98 := by
  intro l
  induction l with
  | nil =>
    intro _ toks ht
    have : toks = [] := by simpa [plainToks] using ht
    exact ⟨[], by simp [this], .nil, by simp⟩
  | cons s l ih =>
    intro h toks ht
    rw [List.flatMap_cons] at ht
    unfold plainToks at ht
    obtain ⟨t1, t2, rfl, h1, h2⟩ := List.map_eq_append_iff.mp ht
    obtain ⟨hn, hv⟩ := h s (by simp)
    obtain ⟨parts, rfl, hp1, hp2⟩ := ih (fun t ht => h t (by simp [ht])) t2 h2
    obtain ⟨ts, hts, hst⟩ := assigned_statement O hn hv
    refine ⟨t1 :: parts, by simp, .cons ⟨ts, ?_, hst⟩ hp1, ?_⟩
    · rw [meaning_plain, ← hts]
      unfold plainToks
      rw [h1]
    · intro part hm
      rcases List.mem_cons.mp hm with rfl | hm
      · have : part.length = (assignedTokens s).length := by rw [← h1, List.length_map]
        rw [this, assignedTokens]
        rcases s.2 with v | x | t
        · show (_ :: _ :: (numberTokens v ++ [_])).length ≤ 98
          rw [numberTokens]
          split <;> simp
        · show (_ :: _ :: (floatTokens x ++ [_])).length ≤ 98
          rw [floatTokens]
          split <;> simp
        · simp [typedValue]
      · exact hp2 part hm

/-! ## running the statements -/

variable {W : Type}

theorem value_ty (H : Host ℚ W) (D : DeckState ℚ W) {v : Val ℚ} {e : Expr ℚ W} (h : (typedExpr v).build (D.env H) = some e) :
    e.ty = v.ty := by
  rcases v with v | x | t
  · exact number_ty H D h
  · change (floatExpr x).build (D.env H) = some e at h
    unfold floatExpr at h
    split at h
    · cases h; rfl
    · cases h; rfl
  · cases h; rfl

theorem convert_self (O : FloatOps ℚ) {v w : Val ℚ} (h : convert O v.ty v = some w) : w = v := by
  rcases v with v | v | v <;> exact (Option.some.inj h).symm

/-- a parameter is assigned -/
theorem step_assigned (H : Host ℚ W) (hneg : ∀ y, H.ops.neg y = -y) (D : DeckState ℚ W) (hD : DInv D) {s : String × Val ℚ} (hn : IsName s.1)
    (hs : CanBeStored s.2) {v : ℕ} {x : Variable ℚ W} (hv : Declares D.store D.store.cursor s.1 v) (hx : D.heap[v]? = some x)
    (hro : x.readOnly = false) {val : Val ℚ} (hval : convert H.ops x.ty s.2 = some val) :
    D.step H (assignedStmt s) = (true, { D with
      heap := D.heap.set v { x with value := val, expression := none, fixed := true, initialised := true, id := D.nextId }
      nextId := D.nextId + 1 }) := by
  obtain ⟨e, he, hc, hev⟩ := build_typed H hneg D hs
  have hget : D.store.getVariable D.store.cursor s.1 = some v := by
    rw [Vars.getVariable_iff hD.store D.store.cursor hD.store.cursor [s.1] s.1 (name_written hn)]
    exact ⟨D.store.cursor, .refl, ⟨v, hv⟩, fun e' h _ => h, .var hv⟩
  have hl : DeckState.lhsType x = x.ty := by
    unfold DeckState.lhsType
    obtain ⟨t1, t2⟩ := hD.typed v x hx
    by_cases hf : x.fixed = true
    · rw [if_pos hf, t1 hf]
    · rw [if_neg hf]
      obtain ⟨e', he', hty'⟩ := t2 (by simpa using hf)
      rw [he']; exact hty'
  have hvt : val.ty = x.ty := convert_ty _ _ _ _ hval
  obtain ⟨p, hp, hpc, hpe⟩ : ∃ p, DeckState.promoteAssign (DeckState.lhsType x) e = p ∧ p.isConstant D.state = true ∧
      p.eval H.ops D.state = some val := by
    refine ⟨_, rfl, ?_⟩
    unfold DeckState.promoteAssign
    rw [hl]
    by_cases ht : e.ty = x.ty
    · rw [if_pos ht]
      refine ⟨hc, hev.trans ?_⟩
      rw [← ht, value_ty H D he] at hval
      rw [convert_self _ hval]
    · rw [if_neg ht]
      refine ⟨hc, ?_⟩
      show (e.eval H.ops D.state).bind (convert H.ops x.ty) = some val
      rw [hev]; exact hval
  show D.update H s.1 (typedExpr s.2) = _
  simp only [DeckState.update, he, hget, hx, hp, DeckState.evaluate, hpc, hpe, if_true, Option.map_some]
  unfold Variable.assign
  rw [if_neg (fun h => h hvt.symm), hro, if_neg (by simp)]
  rfl

/-- all of them are assigned -/
theorem run_assigned (H : Host ℚ W) (hneg : ∀ y, H.ops.neg y = -y) : ∀ (l : List (String × Val ℚ)) (D : DeckState ℚ W), DInv D → NoRefs D → OnlyRead D → D.store.cursor = 0 →
    (∀ s ∈ l, IsName s.1 ∧ CanBeStored s.2) → (l.map Prod.fst).Nodup →
    (∀ s ∈ l, ∃ v x, Declares D.store 0 s.1 v ∧ D.heap[v]? = some x ∧ x.readOnly = false ∧ ∃ val, convert H.ops x.ty s.2 = some val) →
    ∃ D', D.run H (l.map assignedStmt) = (true, D') ∧ DInv D' ∧ NoRefs D' ∧ OnlyRead D' ∧ D'.store = D.store ∧ D'.tree = D.tree ∧
      (∀ s ∈ l, ∀ (v : ℕ) (x : Variable ℚ W), Declares D.store 0 s.1 v → D.heap[v]? = some x → ∀ val, convert H.ops x.ty s.2 = some val →
        ∃ x' : Variable ℚ W, D'.heap[v]? = some x' ∧ x'.value = val ∧ x'.fixed = true ∧ x'.initialised = true) ∧
      ∀ v, (∀ s ∈ l, ¬ Declares D.store 0 s.1 v) → D'.heap[v]? = D.heap[v]? := by
  intro l
  induction l with
  | nil => intro D hD hR hO _ _ _ _; exact ⟨D, rfl, hD, hR, hO, rfl, rfl, by simp, fun _ _ => rfl⟩
  | cons s l ih =>
    intro D hD hR hO hcur hl hnd hex
    obtain ⟨hn1, hn2⟩ := List.nodup_cons.mp hnd
    obtain ⟨v, x, hv, hx, hro, val, hval⟩ := hex s (by simp)
    obtain ⟨g1, g2⟩ := hl s (by simp)
    have hstep := step_assigned H hneg D hD g1 g2 (hcur.symm ▸ hv) hx hro hval
    have hI := dinv_step H D (assignedStmt s) hD
    rw [hstep] at hI
    have hvlt := (List.getElem?_eq_some_iff.mp hx).1
    generalize hx' : ({ x with value := val, expression := none, fixed := true, initialised := true, id := D.nextId } : Variable ℚ W) = x'
      at hstep hI
    generalize hD1 : ({ D with heap := D.heap.set v x', nextId := D.nextId + 1 } : DeckState ℚ W) = D1 at hstep hI
    have e1 : D1.store = D.store := by rw [← hD1]
    have e2 : D1.tree = D.tree := by rw [← hD1]
    have e3 : D1.heap = D.heap.set v x' := by rw [← hD1]
    have huniq : ∀ t ∈ l, ∀ w, Declares D.store 0 t.1 w → w ≠ v := by
      rintro t ht w hw rfl
      exact hn1 ((hD.once _ _ _ _ _ hv hw).2 ▸ List.mem_map_of_mem ht)
    obtain ⟨D', a1, a2, a3, a4, a5, a6, a7, a8⟩ := ih D1 hI (by
      intro y hy e he
      rw [e3] at hy
      rcases List.mem_or_eq_of_mem_set hy with hy | rfl
      · exact hR y hy e he
      · rw [← hx'] at he; cases he) (by
      intro y hy hf
      rw [e3] at hy
      rcases List.mem_or_eq_of_mem_set hy with hy | rfl
      · exact hO y hy hf
      · rw [← hx'] at hf; cases hf) (by rw [e1]; exact hcur) (fun t ht => hl t (by simp [ht])) hn2 (by
      intro t ht
      obtain ⟨w, y, hw, hy, b1, b2⟩ := hex t (by simp [ht])
      refine ⟨w, y, by rw [e1]; exact hw, ?_, b1, b2⟩
      rw [e3, List.getElem?_set_ne (huniq t ht w hw).symm]
      exact hy)
    rw [e1] at a5 a7 a8
    refine ⟨D', ?_, a2, a3, a4, a5, a6.trans e2, ?_, ?_⟩
    · show DeckState.chain (DeckState.step H) (assignedStmt s :: l.map assignedStmt) D = _
      rw [chain_cons, hstep]
      exact a1
    · intro t ht w y hw hy val' hval'
      rcases List.mem_cons.mp ht with rfl | ht
      · have : w = v := by
          have p1 := (Vars.varOf_iff hD.store _ _ _).mpr hw
          rw [(Vars.varOf_iff hD.store _ _ _).mpr hv] at p1
          exact (Option.some.inj p1).symm
        subst this
        rw [hx] at hy
        cases hy
        rw [hval] at hval'
        cases hval'
        refine ⟨x', ?_, by rw [← hx'], by rw [← hx'], by rw [← hx']⟩
        rw [a8 w fun u hu hd => huniq u hu w hd rfl, e3, List.getElem?_set_self hvlt]
      · exact a7 t ht w y hw (by rw [e3, List.getElem?_set_ne (huniq t ht w hw).symm]; exact hy) val' hval'
    · intro w hw
      rw [a8 w fun u hu => hw u (by simp [hu]), e3, List.getElem?_set_ne]
      rintro rfl
      exact hw s (by simp) hv

end Schnek.Lemma.SettingsText
