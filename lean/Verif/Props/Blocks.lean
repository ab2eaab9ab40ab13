import Verif.Lemma.ParamEval

/-!
# What the properties say about blocks after a file has been read

C44, C45, C62, C65.
-/

namespace Schnek.Props

open Schnek.Deck Schnek.Spec Schnek.Lemma.Deck Schnek.Lemma.Blocks Relation

variable {F W : Type}

/-! ## shared data -/

theorem res_exclusive {α : Type} {data : ℕ → List String → Option α} {S : Place → Prop} {r : Option (Option α)} (h : Res data S r) :
    (∀ d, r = some (some d) ↔ ∃ l : Place, (∀ l', S l' ↔ l' = l) ∧ data l.1 l.2 = some d) ∧
    (r = some none ↔ ∀ l, ¬ S l) ∧ (r = none ↔ ∃ l l', l ≠ l' ∧ S l ∧ S l') := by
  rcases r with _ | _ | d
  · obtain ⟨l, l', hne, h1, h2⟩ := h
    refine ⟨?_, ?_, ?_⟩
    · intro d
      simp only [reduceCtorEq, false_iff]
      rintro ⟨m, hm, -⟩
      exact hne (((hm l).mp h1).trans ((hm l').mp h2).symm)
    · simp only [reduceCtorEq, false_iff]
      exact fun h => h l h1
    · simp only [true_iff]
      exact ⟨l, l', hne, h1, h2⟩
  · have h : ∀ l, ¬ S l := h
    refine ⟨?_, ?_, ?_⟩
    · intro d
      simp only [Option.some.injEq, reduceCtorEq, false_iff]
      rintro ⟨m, hm, -⟩
      exact h m ((hm m).mpr rfl)
    · simp only [true_iff]
      exact h
    · simp only [reduceCtorEq, false_iff]
      rintro ⟨l, -, -, h1, -⟩
      exact h l h1
  · obtain ⟨l, hl, hd⟩ := h
    refine ⟨?_, ?_, ?_⟩
    · intro d'
      simp only [Option.some.injEq]
      constructor
      · rintro rfl
        exact ⟨l, hl, hd⟩
      · rintro ⟨m, hm, hmd⟩
        have : m = l := (hl m).mp ((hm m).mpr rfl)
        rw [this, hd, Option.some.injEq] at hmd
        exact hmd
    · simp only [Option.some.injEq, reduceCtorEq, false_iff]
      exact fun h => h l ((hl l).mpr rfl)
    · simp only [reduceCtorEq, false_iff]
      rintro ⟨m, m', hne, h1, h2⟩
      exact hne (((hl m).mp h1).trans ((hl m').mp h2).symm)

/-- C44: in every tree of blocks made from a file, the search for shared data gives what the block sees, if that is in one place only.
It is not found if the block sees nothing, and the search throws an exception if the block sees it in more than one place. -/
theorem C44_search {α : Type} (P : Program F W) (deck : List (Stmt F)) (data : ℕ → List String → Option α) (b : ℕ)
    (hb : b < (P.after deck).tree.blocks.length) (key : List String) :
    (∀ d, (P.after deck).tree.getData data b key = some (some d) ↔
      ∃ l : Place, (∀ l', Sees (P.after deck).tree data key b l' ↔ l' = l) ∧ data l.1 l.2 = some d) ∧
    ((P.after deck).tree.getData data b key = some none ↔ ∀ l, ¬ Sees (P.after deck).tree data key b l) ∧
    ((P.after deck).tree.getData data b key = none ↔
      ∃ l l', l ≠ l' ∧ Sees (P.after deck).tree data key b l ∧ Sees (P.after deck).tree data key b l') :=
  res_exclusive (getUp_res (ok_after P deck) _ _ key b hb le_rfl (Nat.lt_succ_self b))

/-- C44: `retrieveData` returns data exactly if the block sees it in one place, and then it returns what is registered there. -/
theorem C44_retrieve {α : Type} (P : Program F W) (deck : List (Stmt F)) (data : ℕ → List String → Option α) (b : ℕ)
    (hb : b < (P.after deck).tree.blocks.length) (key : List String) (d : α) :
    (P.after deck).tree.retrieveValue data b key = some d ↔
      ∃ l : Place, (∀ l', Sees (P.after deck).tree data key b l' ↔ l' = l) ∧ data l.1 l.2 = some d := by
  rw [← (C44_search P deck data b hb key).1 d]
  unfold BlockTree.retrieveValue
  rcases (P.after deck).tree.getData data b key with _ | _ | d' <;> simp

/-- C44: what a block registers under a key it finds itself under that key, whatever is registered elsewhere; the last registration
counts. -/
theorem C44_own {α : Type} (P : Program F W) (deck : List (Stmt F)) (data : ℕ → List String → Option α) (b : ℕ)
    (key : List String) (d : α) :
    (P.after deck).tree.retrieveValue (addData data b key d) b key = some d := by
  unfold BlockTree.retrieveValue BlockTree.getData
  have : addData data b key d b key = some d := by simp [addData]
  simp only [BlockTree.getUp, this]
  rfl

/-- C65: as long as blocks register pointers only, or nothing of that kind is seen, `retrieveData` for a pointer gives what the block
sees. -/
theorem C65_pointer_partial {α : Type} (P : Program F W) (deck : List (Stmt F)) (pointers data : ℕ → List String → Option α) (b : ℕ)
    (hb : b < (P.after deck).tree.blocks.length) (key : List String) (d : α) :
    ((∀ l, ¬ Sees (P.after deck).tree pointers key b l) → ((P.after deck).tree.retrievePointer pointers data b key = some d ↔
      ∃ l : Place, (∀ l', Sees (P.after deck).tree data key b l' ↔ l' = l) ∧ data l.1 l.2 = some d)) ∧
    ((∀ l, ¬ Sees (P.after deck).tree data key b l) → ((P.after deck).tree.retrievePointer pointers data b key = some d ↔
      ∃ l : Place, (∀ l', Sees (P.after deck).tree pointers key b l' ↔ l' = l) ∧ pointers l.1 l.2 = some d)) := by
  obtain ⟨p1, p2, p3⟩ := C44_search P deck pointers b hb key
  obtain ⟨d1, d2, d3⟩ := C44_search P deck data b hb key
  unfold BlockTree.retrievePointer
  constructor
  · intro h
    rw [p2.mpr h, ← d1 d]
    rcases (P.after deck).tree.getData data b key with _ | _ | d' <;> simp
  · intro h
    rw [d2.mpr h, ← p1 d]
    rcases (P.after deck).tree.getData pointers b key with _ | _ | d' <;> simp

/-! ## lifecycle -/

/-- the order of the phases -/
def rank : Phase → ℕ
  | .evaluate => 0
  | .registerData => 1
  | .preInit => 2
  | .init => 3
  | .postInit => 4

/-- C45: for a block `b` reached by `initAll`, each phase is called exactly once for `b` and for each block below it, and for no other.
A phase is finished for all blocks before the next one begins. Within a phase blocks are called in the order of the file, and so a
block is called after its parent. -/
theorem C45_order (P : Program F W) (deck : List (Stmt F)) (b : ℕ) (hb : b < (P.after deck).tree.blocks.length) :
    (∀ p c, (p, c) ∈ (P.after deck).tree.calls b ↔ Below (P.after deck).tree b c) ∧
    ((P.after deck).tree.calls b).Pairwise (fun x y => rank x.1 < rank y.1 ∨ (x.1 = y.1 ∧ x.2 < y.2)) ∧
    (∀ p c, ChildOf (P.after deck).tree p c → p < c) := by
  obtain ⟨h1, h2⟩ := visit_spec (ok_after P deck) (P.after deck).tree.blocks.length b hb (by omega)
  refine ⟨?_, ?_, (ok_after P deck).lt⟩
  · intro p c
    rw [← h1 c]
    unfold BlockTree.calls
    simp only [List.mem_flatMap, List.mem_map, Prod.mk.injEq]
    constructor
    · rintro ⟨p', -, c', hc, rfl, rfl⟩
      exact hc
    · intro hc
      exact ⟨p, by cases p <;> simp, c, hc, rfl, rfl⟩
  · unfold BlockTree.calls
    rw [List.pairwise_flatMap]
    constructor
    · intro p _
      rw [List.pairwise_map]
      exact h2.imp fun h => Or.inr ⟨rfl, h⟩
    · simp [rank]

/-- C45: called for a block that has no parent, or for a child of such a block, `initAll` goes to the outermost block. -/
theorem C45_start_partial (T : BlockTree) (b : ℕ) (h : ∀ p, ChildOf T p b → ∀ g, ¬ ChildOf T g p) : ∃ n r, T.climb b n b = some r ∧ Outermost T r b := by
  have hpar : ∀ c p, T.parentOf c = some p ↔ ChildOf T p c := by
    intro c p
    unfold BlockTree.parentOf ChildOf
    rw [Option.bind_eq_some_iff]
  rcases hp : T.parentOf b with _ | p
  · refine ⟨1, b, ?_, ReflTransGen.refl, ?_⟩
    · rw [BlockTree.climb, hp]
    · intro q hq
      rw [← hpar, hp] at hq
      simp at hq
  · have hc := (hpar b p).mp hp
    have hpp : T.parentOf p = none := by
      rcases hg : T.parentOf p with _ | g
      · rfl
      · exact absurd ((hpar p g).mp hg) (h p hc g)
    refine ⟨2, p, ?_, ReflTransGen.single hc, h p hc⟩
    rw [BlockTree.climb, hp]
    show T.climb b 1 p = some p
    rw [BlockTree.climb, hpp]

/-- C45 is false for blocks further down: `initAll` does not end. -/
theorem C45_violated_deep (T : BlockTree) (b p g : ℕ) (h : ChildOf T p b) (h' : ChildOf T g p) : ∀ n, T.climb b n b = none := by
  have hpar : ∀ c p, ChildOf T p c → T.parentOf c = some p := by
    rintro c p ⟨B, hB, hp⟩
    unfold BlockTree.parentOf
    rw [hB, Option.bind_some, hp]
  have key : ∀ n, T.climb b n p = none := by
    intro n
    induction n with
    | zero => rfl
    | succ n ih => rw [BlockTree.climb, hpar p g h', hpar b p h]; exact ih
  intro n
  cases n with
  | zero => rfl
  | succ n => rw [BlockTree.climb, hpar b p h]; exact key n

/-! ## parameters -/

/-- C62: `evaluateParameters` for a block `b`, called after the file has been read. If it succeeds, then for each parameter of `b` and
of the blocks below, the program's variable has the value that the variable has in the file, and a value of the right type; if the
parameter is read-only, the program's variable is not changed. No other variable of the program changes, nor does any variable of the
file. -/
theorem C62_parameters_partial (P : Program F W) (hnames : DistinctNames P.classes) (deck : List (Stmt F)) (D' : DeckState F W)
    (h : P.begin.parse P.host deck = some D') (b : ℕ) (hb : b < D'.tree.blocks.length) (D'' : DeckState F W)
    (he : D'.evaluateParameters P.host b = some D'') :
    (∀ k q, Below D'.tree b k → Asks P.classes D' k q → ∃ v t, FileVariable D' k q.name v ∧ ProgramVariable D' k q.name t ∧
      (q.readOnly = false → D''.ext t = D'.state.value v ∧ (D''.ext t).ty = q.current.ty)) ∧
    (∀ t, (∀ k q, Below D'.tree b k → Asks P.classes D' k q → q.readOnly = false → ¬ ProgramVariable D' k q.name t) →
      D''.ext t = D'.ext t) ∧
    D''.heap = D'.heap ∧ D''.store = D'.store ∧ D''.tree = D'.tree ∧ D''.world = D'.world := by
  obtain ⟨hmem, heq, hinj⟩ := params_below h b hb
  have hgood : ∀ p ∈ paramsOf D' (D'.tree.visit D'.tree.blocks.length b), Good P.host D' p := by
    intro p hp
    obtain ⟨k, n, -, B, hB, hm⟩ := (hmem p).mp hp
    obtain ⟨_, _, _, -, -, -, -, i5⟩ := param_info hnames h k B hB
    obtain ⟨q, -, -, hq⟩ := i5 n p hm
    exact hq.2.2.1
  obtain ⟨e1, e2⟩ := evalParams_spec P.host D' _ hgood D'.ext
  rw [heq] at he
  have hnb : ∀ p ∈ paramsOf D' (D'.tree.visit D'.tree.blocks.length b), ¬ Bad P.host D' p := by
    intro p hp hbad
    have := e1 ⟨p, hp, hbad⟩
    rw [show ({ D' with ext := D'.ext } : DeckState F W) = D' from rfl, he] at this
    simp at this
  have := e2 hnb
  rw [show ({ D' with ext := D'.ext } : DeckState F W) = D' from rfl, he, Option.some.injEq] at this
  subst this
  refine ⟨?_, ?_, rfl, rfl, rfl, rfl⟩
  · rintro k q hk ⟨B, Bv, d, specs, hB, hBv, hd, hf, hq, hc⟩
    obtain ⟨Bv', d', specs', i1, i2, i3, i4, -⟩ := param_info hnames h k B hB
    rw [hBv, Option.some.injEq] at i1
    subst i1
    rw [hd, Option.some.injEq] at i2
    subst i2
    rw [hf, Option.some.injEq] at i3
    subst i3
    obtain ⟨p, hp, h1, h2, h3, x, hx, hty, hro, htyp, hval⟩ := i4 q hq
    rw [hc, Bool.not_false, Option.isSome_iff_exists] at h1
    obtain ⟨t, ht⟩ := h1
    have hin : p ∈ paramsOf D' (D'.tree.visit D'.tree.blocks.length b) := (hmem p).mpr ⟨k, q.name, hk, B, hB, hp⟩
    refine ⟨p.var, t, ⟨B, hB, h2⟩, ⟨B, p, hB, hp, ht⟩, ?_⟩
    intro hr
    have hxr : x.readOnly = false := by rw [hro, hc, hr]; rfl
    have hres := (foldl_act D' (paramsOf D' (D'.tree.visit D'.tree.blocks.length b)) D'.ext t).2 p hin x ht hx hxr (by
      intro p' hp' ht'
      obtain ⟨k', n', -, hp'⟩ := (hmem p').mp hp'
      exact (hinj k' n' p' k q.name p t hp' ⟨B, hB, hp⟩ ht' ht).2.2)
    refine ⟨hres.trans hval.symm, ?_⟩
    rw [show ({ D' with ext := _ } : DeckState F W).ext t = x.value from hres, ← hty]
    rcases hfx : x.fixed with _ | _
    · obtain ⟨e, hee, hety⟩ := htyp.2 hfx
      obtain ⟨x', hx', hg⟩ := h3
      rw [hx, Option.some.injEq] at hx'
      subst hx'
      rcases hv : e.eval P.host.ops D'.state with _ | val
      · refine absurd ⟨t, x, ht, hx, Or.inr ⟨hxr, hfx, ?_⟩⟩ (hnb p hin)
        rw [hee, Option.bind_some, hv]
      · rw [← (hg hxr e hee).2 hfx val hv, eval_ty _ _ e val hv, hety]
    · exact htyp.1 hfx
  · intro t ht
    refine (foldl_act D' _ D'.ext t).1 ?_
    intro p hp x hpt hx
    obtain ⟨k, n, hk, B, hB, hm⟩ := (hmem p).mp hp
    obtain ⟨Bv, d, specs, i1, i2, i3, -, i5⟩ := param_info hnames h k B hB
    obtain ⟨q, hq, hn, h1, -, -, x', hx', -, hro, -⟩ := i5 n p hm
    rw [hx, Option.some.injEq] at hx'
    subst hx'
    have hc : q.constant = false := by
      rw [hpt] at h1
      simpa using h1.symm
    by_contra hxr
    refine ht k q hk ⟨B, Bv, d, specs, hB, i1, i2, i3, hq, hc⟩ ?_ ⟨B, p, hB, hn ▸ hm, hpt⟩
    rcases hr : q.readOnly with _ | _
    · rfl
    · rw [hr, Bool.or_true] at hro
      exact absurd hro hxr

/-- C62: `evaluateParameters` fails exactly if a parameter of the block, or of a block below, has no value, or cannot be evaluated. -/
theorem C62_errors_partial (P : Program F W) (hnames : DistinctNames P.classes) (deck : List (Stmt F)) (D' : DeckState F W)
    (h : P.begin.parse P.host deck = some D') (b : ℕ) (hb : b < D'.tree.blocks.length) :
    D'.evaluateParameters P.host b = none ↔
      ∃ k q v x, Below D'.tree b k ∧ Asks P.classes D' k q ∧ FileVariable D' k q.name v ∧ D'.heap[v]? = some x ∧
        (x.initialised = false ∨ (q.readOnly = false ∧ ∃ e, DefinedBy D' v e ∧ e.eval P.host.ops D'.state = none)) := by
  obtain ⟨hmem, heq, hinj⟩ := params_below h b hb
  have hgood : ∀ p ∈ paramsOf D' (D'.tree.visit D'.tree.blocks.length b), Good P.host D' p := by
    intro p hp
    obtain ⟨k, n, -, B, hB, hm⟩ := (hmem p).mp hp
    obtain ⟨_, _, _, -, -, -, -, i5⟩ := param_info hnames h k B hB
    obtain ⟨q, -, -, hq⟩ := i5 n p hm
    exact hq.2.2.1
  obtain ⟨e1, e2⟩ := evalParams_spec P.host D' _ hgood D'.ext
  rw [heq]
  have hD : ({ D' with ext := D'.ext } : DeckState F W) = D' := rfl
  rw [hD] at e1 e2
  have hstore : Lemma.Vars.Inv D'.store := by
    obtain ⟨-, -, c3, -⟩ := C59_values_current P deck D' h
    rw [c3]
    exact (dinv_after P deck).store
  constructor
  · intro hnone
    by_contra hno
    have : ∀ p ∈ paramsOf D' (D'.tree.visit D'.tree.blocks.length b), ¬ Bad P.host D' p := by
      rintro p hp ⟨t, x, ht, hx, hor⟩
      obtain ⟨k, n, hk, B, hB, hm⟩ := (hmem p).mp hp
      obtain ⟨Bv, d, specs, i1, i2, i3, -, i5⟩ := param_info hnames h k B hB
      obtain ⟨q, hq, hn, h1, hdecl, -, x', hx', -, hro, htyp, -⟩ := i5 n p hm
      rw [hx, Option.some.injEq] at hx'
      subst hx'
      have hc : q.constant = false := by
        rw [ht] at h1
        simpa using h1.symm
      refine hno ⟨k, q, p.var, x, hk, ⟨B, Bv, d, specs, hB, i1, i2, i3, hq, hc⟩, ⟨B, hB, hdecl⟩, hx, ?_⟩
      rcases hor with hor | ⟨hr, hf, hev⟩
      · exact Or.inl hor
      · refine Or.inr ⟨?_, ?_⟩
        · rw [hro, hc, Bool.false_or] at hr
          exact hr
        · obtain ⟨e, hee, -⟩ := htyp.2 hf
          rw [hee, Option.bind_some] at hev
          exact ⟨e, ⟨⟨B.context, q.name, hdecl⟩, x, hx, hf, hee⟩, hev⟩
    rw [e2 this] at hnone
    simp at hnone
  · rintro ⟨k, q, v, x, hk, ⟨B, Bv, d, specs, hB, hBv, hd, hf, hq, hc⟩, ⟨B', hB', hv⟩, hx, hor⟩
    rw [hB, Option.some.injEq] at hB'
    subst hB'
    obtain ⟨Bv', d', specs', i1, i2, i3, i4, -⟩ := param_info hnames h k B hB
    rw [hBv, Option.some.injEq] at i1
    subst i1
    rw [hd, Option.some.injEq] at i2
    subst i2
    rw [hf, Option.some.injEq] at i3
    subst i3
    obtain ⟨p, hp, h1, h2, h3, x', hx', hty, hro, htyp, hval⟩ := i4 q hq
    have hpv : p.var = v := by
      have a := (Lemma.Vars.varOf_iff hstore B.context q.name v).mpr hv
      have b := (Lemma.Vars.varOf_iff hstore B.context q.name p.var).mpr h2
      rw [a, Option.some.injEq] at b
      exact b.symm
    subst hpv
    rw [hx, Option.some.injEq] at hx'
    subst hx'
    rw [hc, Bool.not_false, Option.isSome_iff_exists] at h1
    obtain ⟨t, ht⟩ := h1
    refine e1 ⟨p, (hmem p).mpr ⟨k, q.name, hk, B, hB, hp⟩, t, x, ht, hx, ?_⟩
    rcases hor with hor | ⟨hr, e, ⟨-, x', hx', hf', hee⟩, hev⟩
    · exact Or.inl hor
    · rw [hx, Option.some.injEq] at hx'
      subst hx'
      refine Or.inr ⟨by rw [hro, hc, hr]; rfl, hf', ?_⟩
      rw [hee, Option.bind_some, hev]

/-! ## examples -/

/-- `size = 2; A a { n = 5; A d {} } A c {}` -/
def blocksDeck : List (Stmt ℚ) :=
  [.assign "size" (lit 2), .start "A" "a", .assign "n" (lit 5), .start "A" "d", .stop, .stop, .start "A" "c", .stop]

/-- The hypotheses of C44, C45 and C62 are met, and C45 is false: the blocks are the root block, `a` and `c` in it, and `d` in `a`. The
parameters are evaluated: `size`, `t`, and three times `n`. The loop of `initAll`, called for `d`, does not end. -/
theorem C45_violated_example :
    (exampleProgram.begin.parse exampleProgram.host blocksDeck).map (fun D => D.tree.blocks.map fun B => (B.name, B.parent)) =
      some [("root", none), ("a", some 0), ("d", some 1), ("c", some 0)] ∧
    ((exampleProgram.begin.parse exampleProgram.host blocksDeck).bind fun D => D.evaluateParameters exampleProgram.host 0).map
      (fun D => (List.range 5).map D.ext) = some [.int 2, .int 5, .int 5, .int 1, .int 1] ∧
    (exampleProgram.after blocksDeck).tree.climb 0 5 0 = some 0 ∧ (exampleProgram.after blocksDeck).tree.climb 3 5 3 = some 0 ∧
    ∀ n, (exampleProgram.after blocksDeck).tree.climb 2 n 2 = none := by
  refine ⟨by decide +kernel, by decide +kernel, by decide +kernel, by decide +kernel, ?_⟩
  have h : ((exampleProgram.after blocksDeck).tree.blocks[2]?.map Block.parent) = some (some 1) ∧
      ((exampleProgram.after blocksDeck).tree.blocks[1]?.map Block.parent) = some (some 0) := by
    constructor <;> decide +kernel
  obtain ⟨B, hB, hp⟩ := Option.map_eq_some_iff.mp h.1
  obtain ⟨B', hB', hp'⟩ := Option.map_eq_some_iff.mp h.2
  exact C45_violated_deep _ 2 1 0 ⟨B, hB, hp⟩ ⟨B', hB', hp'⟩

example : DistinctNames exampleProgram.classes := by
  intro c d specs h hf
  simp only [exampleProgram, List.lookup_cons] at h
  split at h
  · rw [Option.some.injEq] at h
    subst h
    rw [Option.some.injEq] at hf
    subst hf
    decide
  · split at h
    · rw [Option.some.injEq] at h
      subst h
      rw [Option.some.injEq] at hf
      subst hf
      decide
    · simp at h

/-- what is registered as `x` by the blocks `a` and `c`, and as `y` by the root block and by `d` -/
def someData (b : ℕ) (key : List String) : Option ℕ :=
  if (b = 1 ∨ b = 3) ∧ key = ["x"] then some b else if (b = 0 ∨ b = 2) ∧ key = ["y"] then some b else none

/-- C44 for that data: the root block gets an exception for `x`, and finds `a.x` and `c.x`. The block `d` finds `x` in its parent, and its
own `y`. The block `c` finds `y` in the root block, and `a.d.y` from there. -/
example : let T := (exampleProgram.after blocksDeck).tree
    T.getData someData 0 ["x"] = none ∧ T.getData someData 0 ["a", "x"] = some (some 1) ∧ T.getData someData 0 ["c", "x"] = some (some 3) ∧
    T.getData someData 2 ["x"] = some (some 1) ∧ T.getData someData 2 ["y"] = some (some 2) ∧
    T.getData someData 3 ["y"] = some (some 0) ∧ T.getData someData 3 ["a", "d", "y"] = some (some 2) ∧
    T.getData someData 3 ["z"] = some none := by decide +kernel

/-- C65 is false: the block `a` has registered a `T` as `x`, and the block `c` a pointer to another `T`, also as `x`. Then `a` does not get
its own. -/
theorem C65_violated_shadowed :
    (exampleProgram.after blocksDeck).tree.retrieveValue (fun b key => if b = 1 ∧ key = ["x"] then some 10 else none) 1 ["x"] = some 10 ∧
    (exampleProgram.after blocksDeck).tree.retrievePointer (fun b key => if b = 3 ∧ key = ["x"] then some 20 else none)
      (fun b key => if b = 1 ∧ key = ["x"] then some 10 else none) 1 ["x"] = some 20 := by
  constructor <;> decide +kernel

/-- The root block registers two parameters `size`, the second with default 1. -/
def twice : Program ℚ Unit :=
  { exampleProgram with
    classes := [("Root", ⟨[], some [⟨"size", .int 7, none, false, false, by simp⟩,
      ⟨"size", .int 8, some (.int 1), false, false, by simp [Val.ty]⟩]⟩)] }

/-- C62 is false if a class has two parameters with the same name: after `size = 2;` one of the program's variables is not set, and the
other has the value 1. -/
theorem C62_violated_same_name :
    (twice.begin.parse twice.host [.assign "size" (lit 2)]).map (fun D => (D.store.varOf 0 "size").map D.state.value) =
      some (some (.int 2)) ∧
    ((twice.begin.parse twice.host [.assign "size" (lit 2)]).bind fun D => D.evaluateParameters twice.host 0).map
      (fun D => (D.ext 0, D.ext 1)) = some (.int 7, .int 1) := by
  constructor <;> decide +kernel

end Schnek.Props
