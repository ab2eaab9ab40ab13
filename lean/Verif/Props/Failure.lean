import Verif.Lemma.Failure
import Verif.Spec.Failure
import Verif.Props.Dependencies
import Verif.Props.Blocks

/-!
# C138: errors while values are computed
-/

namespace Schnek.Props

open Schnek.Deck Schnek.Deck.DepMap Schnek.Spec Schnek.Lemma.Dep Schnek.Lemma.Blocks Schnek.Lemma.Deck Schnek.Lemma.Failure Relation

variable {F W : Type}

/-! ## updaters -/

/-- C138: if an evaluation throws an exception in `update`, no variable of the program has been changed. A variable of the file is as it
was before, or holds the value of its definition; what need not be updated is as it was before. The updater has the same independent and
dependent parameters as before. There is a variable that had to be updated and whose definition has no value, although everything else that
had to be updated and it depends on holds the value of its definition. -/
theorem C138_update_throws (O : FloatOps F) (expr : Var → Expr F W) (D : DepMap) (dummy : Var) (t : Tree) (U U' : Updater) (σ σ' : State F W)
    (h : History O expr D dummy t U σ) (n : ℕ) (hu : U.updateThrow O expr D n σ = some (U', σ')) :
    σ'.ext = σ.ext ∧ σ'.world = σ.world ∧ σ'.id = σ.id ∧ σ'.fixed = σ.fixed ∧
    (∀ v, σ'.value v = σ.value v ∨ Current O expr σ' v) ∧
    (∀ v, ¬ Relevant σ expr dummy t U.independent U.dependent v → σ'.value v = σ.value v) ∧
    (U'.independent = U.independent ∧ U'.dependent = U.dependent ∧ U'.params = U.params) ∧
    ∃ b, Relevant σ expr dummy t U.independent U.dependent b ∧ (expr b).eval O σ' = none ∧
      ∀ a, Relevant σ expr dummy t U.independent U.dependent a → Edge σ expr dummy t a b → Current O expr σ' a := by
  have hi := history_inv h
  obtain ⟨-, h1, h2, h3, -, h5, h6, h7, h8, h9, L₁, b, L₂, e1, e2, e3, e4⟩ := hi.failed n hu
  refine ⟨h7, h8, h5, h6, ?_, h9, ⟨h1, h2, h3⟩, ?_⟩
  · intro v
    by_cases hv : v ∈ L₁
    · exact .inr (e4 v hv)
    · exact .inl (e3 v hv)
  · simp only [Updater.updateThrow, Option.bind_eq_some_iff, Option.map_eq_some_iff, Prod.mk.injEq] at hu
    obtain ⟨V, hV, σ₁, hσ₁, rfl, rfl⟩ := hu
    obtain ⟨-, -, -, -, -, hl⟩ := hi.prepared n hV
    refine ⟨b, (hl.mem b).mp (by rw [e1]; simp), e2, ?_⟩
    intro a ha hab
    exact e4 a (hl.edges L₁ b L₂ e1 a hab ha)

/-- C138: as long as nothing that has to be updated depends on itself, `update` either succeeds or an evaluation throws an exception. -/
theorem C138_update_outcomes (O : FloatOps F) (expr : Var → Expr F W) (D : DepMap) (dummy : Var) (t : Tree) (U : Updater) (σ : State F W)
    (h : History O expr D dummy t U σ)
    (hac : ∀ v, Relevant σ expr dummy t U.independent U.dependent v → ¬ TransGen (Edge σ expr dummy t) v v) :
    ∃ N, ∀ n, N ≤ n → ((U.updateThrow O expr D n σ).isSome ↔ U.update O expr D n σ = none) := by
  have hi := history_inv h
  have hC := Lemma.Dep.created σ expr dummy t D hi.ids hi.created
  obtain ⟨N, -, hN⟩ := updateList_var hi.ids hC U.independent U.dependent hi.indepNode hi.depNode
  refine ⟨N, fun n hn => ?_⟩
  obtain ⟨V, hV⟩ : ∃ V, (if U.isValid then some U
      else (D.updateList (U.independent.image σ.id) (U.dependent.image σ.id) n).map
        fun l => { U with updateList := l, isValid := true }) = some V := by
    by_cases hv : U.isValid = true
    · exact ⟨U, if_pos hv⟩
    · rw [if_neg hv]
      rcases hl : D.updateList (U.independent.image σ.id) (U.dependent.image σ.id) n with _ | l
      · obtain ⟨v, hv, hc⟩ := (hN n hn).1.mp hl
        exact absurd hc (hac v hv)
      · exact ⟨_, rfl⟩
  obtain ⟨-, -, -, -, -, hl⟩ := hi.prepared n hV
  rw [Updater.updateThrow, Updater.update, hV]
  simp only [Option.bind_some, Option.isSome_map, Option.map_eq_none_iff]
  exact evaluateThrow_isSome _ _ hl.keys

/-- C138: after an exception in `update`, the next call does the same as if the failed call had never been made, whatever the program has
changed in between. -/
theorem C138_update_again (O : FloatOps F) (expr : Var → Expr F W) (D : DepMap) (dummy : Var) (t : Tree) (U U' : Updater) (σ σ' τ : State F W)
    (h : History O expr D dummy t U σ) (n m : ℕ) (hu : U.updateThrow O expr D n σ = some (U', σ'))
    (hv : τ.value = σ'.value) (hid : τ.id = σ.id) (hf : τ.fixed = σ.fixed) :
    U'.update O expr D m τ = U.update O expr D n { τ with value := σ.value } := by
  have hi := history_inv h
  obtain ⟨-, -, -, -, -, -, -, -, -, h9, -⟩ := hi.failed n hu
  simp only [Updater.updateThrow, Option.bind_eq_some_iff, Option.map_eq_some_iff, Prod.mk.injEq] at hu
  obtain ⟨V, hV, σ₁, hσ₁, rfl, rfl⟩ := hu
  obtain ⟨-, -, -, -, hvalid, hl⟩ := hi.prepared n hV
  have hV' : (if U.isValid then some U
      else (D.updateList (U.independent.image ({ τ with value := σ.value } : State F W).id)
        (U.dependent.image ({ τ with value := σ.value } : State F W).id) n).map
        fun l => { U with updateList := l, isValid := true }) = some V := by
    rw [show ({ τ with value := σ.value } : State F W).id = σ.id from hid]
    exact hV
  rw [Updater.update, Updater.update, if_pos hvalid, hV']
  simp only [Option.bind_some]
  have key : evaluateAll O expr D V.updateList τ = evaluateAll O expr D V.updateList { τ with value := σ.value } := by
    rw [evaluateAll_of_keys O expr D _ _ hl.keys, evaluateAll_of_keys O expr D _ _ hl.keys]
    refine evaluate_agree O expr _ _ _ hl.nodup ?_ rfl rfl rfl rfl ?_
    · intro L₁ b L₂ hL a ha hab
      rw [deps_congr σ _ (show ({ τ with value := σ.value } : State F W).id = σ.id from hid)] at hab
      rw [show ({ τ with value := σ.value } : State F W).id = σ.id from hid] at hab
      exact hl.order L₁ b L₂ hL a ha hab
    · intro v hvl
      rw [hv]
      exact h9 v fun hr => hvl ((hl.mem v).mpr hr)
  rw [key]

/-! ## parameters of blocks -/

/-- C138: `evaluateParameters` throws an exception exactly if it does not succeed. -/
theorem C138_parameters_outcomes (H : Host F W) (D : DeckState F W) (b : ℕ) :
    (∀ E, D.evaluateParametersThrow H b = .ok E ↔ D.evaluateParameters H b = some E) ∧
    ((∃ E, D.evaluateParametersThrow H b = .error E) ↔ D.evaluateParameters H b = none) := by
  have h := evaluateParametersThrow_ok H D
  refine ⟨fun E => h E b, ?_⟩
  rcases hE : D.evaluateParametersThrow H b with E | E
  · simp only [Except.error.injEq, exists_eq', true_iff]
    rcases hn : D.evaluateParameters H b with _ | E'
    · rfl
    · rw [(h E' b).mpr hn] at hE
      simp at hE
  · rw [(h E b).mp hE]
    simp

/-- C138: `evaluateParameters` for a block `b`, called after the file has been read. If there is an exception, nothing has changed but the
program's variables of parameters that come before the one that failed; these have the values of the file. The one that failed, and all that
come after it, have the values they had before. -/
theorem C138_parameters_partial (P : Program F W) (hnames : DistinctNames P.classes) (deck : List (Stmt F)) (D' : DeckState F W)
    (h : P.begin.parse P.host deck = some D') (b : ℕ) (hb : b < D'.tree.blocks.length) (E : DeckState F W)
    (he : D'.evaluateParametersThrow P.host b = .error E) :
    ∃ k₀ q₀ t₀, Below D'.tree b k₀ ∧ Asks P.classes D' k₀ q₀ ∧ ProgramVariable D' k₀ q₀.name t₀ ∧ E.ext t₀ = D'.ext t₀ ∧
      (∀ k q t, Below D'.tree b k → Asks P.classes D' k q → ProgramVariable D' k q.name t →
        (Earlier k q.name k₀ q₀.name → q.readOnly = false → ∃ v, FileVariable D' k q.name v ∧ E.ext t = D'.state.value v) ∧
        (Earlier k₀ q₀.name k q.name ∨ q.readOnly = true → E.ext t = D'.ext t)) ∧
      (∀ t, (∀ k q, Below D'.tree b k → Asks P.classes D' k q → q.readOnly = false → ¬ ProgramVariable D' k q.name t) →
        E.ext t = D'.ext t) ∧
      E.heap = D'.heap ∧ E.store = D'.store ∧ E.tree = D'.tree ∧ E.world = D'.world := by
  obtain ⟨hmem, -, hinj⟩ := params_below h b hb
  obtain ⟨-, -, -, c4, -⟩ := C59_values_current P deck D' h
  have hok : Ok D'.tree := by rw [c4]; exact ok_after P deck
  obtain ⟨v1, v2⟩ := visit_spec hok D'.tree.blocks.length b hb (by omega)
  have hgood : ∀ p ∈ paramsOf D' (D'.tree.visit D'.tree.blocks.length b), Good P.host D' p := by
    intro p hp
    obtain ⟨k, n, -, B, hB, hm⟩ := (hmem p).mp hp
    obtain ⟨_, _, _, -, -, -, -, i5⟩ := param_info hnames h k B hB
    obtain ⟨q, -, -, hq⟩ := i5 n p hm
    exact hq.2.2.1
  have heq := evalBlocksThrow_eq P.host (D'.tree.visit D'.tree.blocks.length b) D' fun k hk =>
    (below_lt ((v1 k).mp hk)).elim (fun e => e ▸ hb) id
  have he' := heq.symm.trans he
  obtain ⟨l₁, p₀, l₂, e1, e2, e3, rfl⟩ := evalParamsThrow_spec P.host D' _ hgood D'.ext E he'
  -- where the exception is in the list with names
  have hsorted := named_sorted D' _ v2
  rw [← named_params] at e1
  obtain ⟨T₁, T', hT, hT₁, hT'⟩ := List.map_eq_append_iff.mp e1
  obtain ⟨⟨k₀, n₀, p₀'⟩, T₂, rfl, hp₀, hT₂⟩ := List.map_eq_cons_iff.mp hT'
  subst hp₀
  rw [hT] at hsorted
  have hall : ∀ k n p, (k, n, p) ∈ T₁ ++ (k₀, n₀, p₀') :: T₂ ↔ Below D'.tree b k ∧ HasParam D'.tree k n p := by
    intro k n p
    rw [← hT, mem_named, v1 k]
  obtain ⟨hk₀, B₀, hB₀, hm₀⟩ := (hall k₀ n₀ p₀').mp (by simp)
  have hin₁ : ∀ p, p ∈ l₁ ↔ ∃ k n, (k, n, p) ∈ T₁ := by
    intro p
    rw [← hT₁, List.mem_map]
    constructor
    · rintro ⟨⟨k, n, p'⟩, hm, rfl⟩
      exact ⟨k, n, hm⟩
    · rintro ⟨k, n, hm⟩
      exact ⟨_, hm, rfl⟩
  have hpos₁ : ∀ k n p, (k, n, p) ∈ T₁ → k < k₀ ∨ (k = k₀ ∧ n ≤ n₀) := fun k n p hp =>
    (List.pairwise_append.mp hsorted).2.2 (k, n, p) hp (k₀, n₀, p₀') (by simp)
  have hpos₂ : ∀ k n p, (k, n, p) ∈ T₂ → k₀ < k ∨ (k₀ = k ∧ n₀ ≤ n) := fun k n p hp =>
    (List.pairwise_cons.mp (List.pairwise_append.mp hsorted).2.1).1 (k, n, p) hp
  have hlt : ∀ a c : String, a ≤ c → ¬ c < a := fun a c hac hca => String.not_le.mpr hca hac
  obtain ⟨Bv, d, specs, i1, i2, i3, -, i5⟩ := param_info hnames h k₀ B₀ hB₀
  obtain ⟨q₀, hq₀, hn₀, h1, hdecl, -, x₀, hx₀, -, hro, -, -⟩ := i5 n₀ p₀' hm₀
  obtain ⟨t₀, x, ht₀, hx, hor⟩ := e3
  have hc₀ : q₀.constant = false := by
    rw [ht₀] at h1
    simpa using h1.symm
  -- what is not among those evaluated keeps its value
  have hkeep : ∀ t, (∀ k n p, (k, n, p) ∈ T₁ → p.target = some t → ∀ x : Variable F W, D'.heap[p.var]? = some x → x.readOnly = true) →
      ({ D' with ext := l₁.foldl (act D') D'.ext } : DeckState F W).ext t = D'.ext t := by
    intro t ht
    refine (foldl_act D' l₁ D'.ext t).1 ?_
    intro p hp x hpt hx
    obtain ⟨k, n, hp⟩ := (hin₁ p).mp hp
    exact ht k n p hp hpt x hx
  refine ⟨k₀, q₀, t₀, hk₀, ⟨B₀, Bv, d, specs, hB₀, i1, i2, i3, hq₀, hc₀⟩, ⟨B₀, p₀', hB₀, hn₀ ▸ hm₀, ht₀⟩, ?_, ?_, ?_, rfl, rfl, rfl, rfl⟩
  · refine hkeep t₀ ?_
    intro k n p hp hpt
    have := (hall k n p).mp (by simp [hp])
    obtain ⟨-, -, rfl⟩ := hinj k n p k₀ n₀ p₀' t₀ this.2 ⟨B₀, hB₀, hm₀⟩ hpt ht₀
    exact absurd ⟨t₀, x, ht₀, hx, hor⟩ (e2 p ((hin₁ p).mpr ⟨k, n, hp⟩))
  · rintro k q t hk ⟨B, Bv', d', specs', hB, hBv', hd', hf', hq, hc⟩ ⟨B', p, hB', hp, hpt⟩
    rw [hB, Option.some.injEq] at hB'
    subst hB'
    obtain ⟨Bv'', d'', specs'', j1, j2, j3, -, j5⟩ := param_info hnames h k B hB
    rw [hBv', Option.some.injEq] at j1
    subst j1
    rw [hd', Option.some.injEq] at j2
    subst j2
    rw [hf', Option.some.injEq] at j3
    subst j3
    obtain ⟨q', hq', hn', -, hdecl', -, y, hy, -, hyro, -, hval⟩ := j5 q.name p hp
    have hqq : q' = q := List.inj_on_of_nodup_map (hnames _ _ _ hd' hf') hq' hq hn'
    subst hqq
    have hpin := (hall k q'.name p).mpr ⟨hk, B, hB, hp⟩
    constructor
    · intro hearly hr
      have hT₁p : (k, q'.name, p) ∈ T₁ := by
        rcases List.mem_append.mp hpin with hp' | hp'
        · exact hp'
        · rcases List.mem_cons.mp hp' with hp' | hp'
          · simp only [Prod.mk.injEq] at hp'
            obtain ⟨rfl, rfl, rfl⟩ := hp'
            rcases hearly with hl | ⟨-, hl⟩
            · omega
            · rw [hn₀] at hl
              exact absurd hl (hlt _ _ (String.le_refl _))
          · rcases hpos₂ _ _ _ hp' with hp'' | ⟨rfl, hp''⟩ <;> rcases hearly with hl | ⟨hk, hl⟩
            · omega
            · omega
            · omega
            · rw [hn₀] at hl
              exact absurd hl (hlt _ _ hp'')
      refine ⟨p.var, ⟨B, hB, hdecl'⟩, ?_⟩
      have hyr : y.readOnly = false := by rw [hyro, hc, hr]; rfl
      rw [hval]
      refine (foldl_act D' l₁ D'.ext t).2 p ((hin₁ p).mpr ⟨_, _, hT₁p⟩) y hpt hy hyr ?_
      intro p' hp' ht'
      obtain ⟨k', n', hp'⟩ := (hin₁ p').mp hp'
      exact (hinj k' n' p' k q'.name p t ((hall k' n' p').mp (by simp [hp'])).2 ⟨B, hB, hp⟩ ht' hpt).2.2
    · intro hlate
      refine hkeep t ?_
      intro k' n' p' hp' ht' z hz
      obtain ⟨rfl, rfl, rfl⟩ := hinj k' n' p' k q'.name p t ((hall k' n' p').mp (by simp [hp'])).2 ⟨B, hB, hp⟩ ht' hpt
      rcases hlate with hlate | hr
      · rcases hpos₁ _ _ _ hp' with hp'' | ⟨rfl, hp''⟩ <;> rcases hlate with hl | ⟨hk, hl⟩
        · omega
        · omega
        · omega
        · rw [hn₀] at hl
          exact absurd hl (hlt _ _ hp'')
      · rw [hy, Option.some.injEq] at hz
        rw [← hz, hyro, hr, Bool.or_true]
  · intro t ht
    refine hkeep t ?_
    intro k n p hp hpt z hz
    obtain ⟨hk, B, hB, hm⟩ := (hall k n p).mp (by simp [hp])
    obtain ⟨Bv', d', specs', j1, j2, j3, -, j5⟩ := param_info hnames h k B hB
    obtain ⟨q, hq, hn, g1, -, -, x', hx', -, hro', -, -⟩ := j5 n p hm
    rw [hz, Option.some.injEq] at hx'
    subst hx'
    have hc : q.constant = false := by
      rw [hpt] at g1
      simpa using g1.symm
    by_contra hxr
    refine ht k q hk ⟨B, Bv', d', specs', hB, j1, j2, j3, hq, hc⟩ ?_ ⟨B, p, hB, hn ▸ hm, hpt⟩
    rcases hr : q.readOnly with _ | _
    · rfl
    · rw [hr, Bool.or_true] at hro'
      exact absurd hro' hxr

/-! ## examples -/

/-- the root block has a parameter `a` with default 1, and parameters `b` and `c` without default -/
def needsTwo : Program ℚ Unit :=
  { exampleProgram with
    classes := [("Root", ⟨[], some [⟨"a", .int 7, some (.int 1), false, false, by simp [Val.ty]⟩, ⟨"b", .int 8, none, false, false, by simp⟩,
      ⟨"c", .int 9, none, false, false, by simp⟩]⟩)] }

/-- The hypotheses of `C138_parameters_partial` are met: the file `a = 3; c = 4;` does not say what `b` is. The program's variable for `a` is
set, those for `b` and `c` keep their values. -/
example : DistinctNames needsTwo.classes ∧
    (needsTwo.begin.parse needsTwo.host [.assign "a" (lit 3), .assign "c" (lit 4)]).map (fun D =>
      match D.evaluateParametersThrow needsTwo.host 0 with
      | .error E => (true, (List.range 3).map E.ext)
      | .ok E => (false, (List.range 3).map E.ext)) = some (true, [.int 3, .int 8, .int 9]) := by
  refine ⟨?_, by decide +kernel⟩
  intro c d specs h hf
  simp only [needsTwo, List.lookup_cons] at h
  split at h
  · rw [Option.some.injEq] at h
    subst h
    rw [Option.some.injEq] at hf
    subst hf
    decide
  · simp at h

/-- only `1` can be read as a number -/
def readOne : FloatOps ℚ := { ratOps with readFloat := fun s => if s = "1" then some 1 else none }

/-- `0` is the dummy, `1` a read-only parameter that is a string, `2 = 1`, and `3` is `2` as a number -/
def textExpr : Var → Expr ℚ Unit
  | 0 => .ext .int 0
  | 1 => .ext .str 1
  | 2 => .ref .str 1
  | 3 => .cast .float (.ref .str 2)
  | _ => .value (.float 0)

/-- the string is `1` -/
def textState : State ℚ Unit where
  value := fun v => if v = 0 then .int 0 else if v = 3 then .float 1 else .str "1"
  fixed := fun v => v == 4
  id := fun v => (v : ℤ) + 10
  ext := fun x => if x = 0 then .int 0 else if x = 1 then .str "1" else .float 0
  world := ()

/-- the map -/
def textMap : DepMap := (DepMap.create textState textExpr 0 chainTree).get (by decide +kernel)

theorem text_node (v : ℕ) : Node textState 0 chainTree v ↔ v = 0 ∨ v = 1 ∨ v = 2 ∨ v = 3 := by
  simp only [Node, NonConstant, chainTree, allVars, allVarsList, textState, List.mem_append, List.mem_cons, List.not_mem_nil,
    or_false, beq_eq_false_iff_ne, ne_eq]
  constructor
  · rintro (h | ⟨h, h4⟩) <;> tauto
  · rintro (rfl | rfl | rfl | rfl) <;> simp

/-- the program sets its string -/
def textChanged (s : String) (σ : State ℚ Unit) : State ℚ Unit := { σ with ext := Function.update σ.ext 1 (.str s) }

/-- an updater with the independent variable `1`, for the program's variable `2` whose value the setup file gives as `3` -/
theorem text_history (s : String) : History readOne textExpr textMap 0 chainTree chainUpdater (textChanged s textState) := by
  have h0 : History readOne textExpr textMap 0 chainTree (Updater.create 0) textState := by
    refine .create textState (by simp [textMap]) ?_ ?_ ⟨0, rfl⟩
    · intro v hv
      rcases (text_node v).mp hv with rfl | rfl | rfl | rfl <;>
        simp [Current, textExpr, textState, Expr.eval, Val.ty, convert, readOne]
    · refine ⟨fun a b h => ?_, fun v => ?_⟩
      · simp only [textState] at h; exact_mod_cast (add_right_cancel h)
      · simp only [textState]; omega
  have h1 := History.independent ⟨1, 1, true⟩ h0 ((text_node 1).mpr (by simp)) (by rfl)
  have h2 := History.dependent ⟨3, 2, false⟩ h1 (by simp [chainTree, allVars, allVarsList]) (by
    intro v hv
    rcases (text_node v).mp hv with rfl | rfl | rfl | rfl <;> simp [textExpr, externals])
    (by simp [Updater.create])
  have h3 : History readOne textExpr textMap 0 chainTree chainUpdater textState := h2
  refine h3.change ⟨rfl, rfl, rfl, ?_⟩
  intro v hv hvi x hx
  rcases (text_node v).mp hv with rfl | rfl | rfl | rfl
  · simp [chainUpdater] at hvi
  · simp [chainUpdater] at hvi
  · simp [textExpr, externals] at hx
  · simp [textExpr, externals] at hx

/-- The hypotheses of the theorems about `update` are met: the program sets its string to `x`. The update fails, when two variables have got
their new values. After the string has been set to `1` again, it succeeds. -/
example : ∃ U' σ', chainUpdater.updateThrow readOne textExpr textMap 20 (textChanged "x" textState) = some (U', σ') ∧
    σ'.value 1 = .str "x" ∧ σ'.value 2 = .str "x" ∧ σ'.value 3 = .float 1 ∧ σ'.ext 2 = .float 0 ∧
    ∃ U'' σ'', U'.update readOne textExpr textMap 20 (textChanged "1" σ') = some (U'', σ'') ∧ σ''.value 2 = .str "1" ∧ σ''.ext 2 = .float 1 := by
  have hl : textMap.updateList (chainUpdater.independent.image (textChanged "x" textState).id)
      (chainUpdater.dependent.image (textChanged "x" textState).id) 20 = some [11, 12, 13] := by decide +kernel
  have hv : textMap.var 11 = 1 ∧ textMap.var 12 = 2 ∧ textMap.var 13 = 3 := by decide +kernel
  have hk : 11 ∈ textMap.keys ∧ 12 ∈ textMap.keys ∧ 13 ∈ textMap.keys := by decide +kernel
  refine ⟨_, _, by
    rw [Updater.updateThrow, if_neg (by simp [chainUpdater]), hl, Option.map_some, Option.bind_some]
    simp [evaluateThrow, hv, hk, evaluateExpression, textExpr, Expr.eval, textChanged, textState, Val.ty, convert, readOne]
    exact ⟨rfl, rfl⟩, ?_, ?_, ?_, ?_, ?_⟩
  · simp
  · simp
  · simp
  · simp
  · refine ⟨_, _, by
      rw [Updater.update, if_pos rfl]
      simp [evaluateAll, hv, hk, evaluateExpression, textExpr, Expr.eval, textChanged, Val.ty, convert, readOne]
      exact ⟨rfl, rfl⟩, ?_, ?_⟩
    · simp [chainUpdater, Param.update]
    · simp [chainUpdater, Param.update]

end Schnek.Props
