import Verif.Lemma.Registry
import Verif.Lemma.Known

/-!
# Registries for functions and block classes (C113, C114)
-/

namespace Schnek.Props

open Schnek.Deck Schnek.Spec Schnek.Lemma.Registry

variable {F W : Type}

/-! ## functions -/

/-- C113: a function registry finds under a name the function that has been registered last under that name, in this registry or in a
related one (a copy, for example the one in a parser); other names and other registries are of no importance. -/
theorem C113_last_registration (ops : List (FuncOp F W)) (S : Shared (Func F W)) (hS : runFuncs ops = some S) (h : ℕ)
    (hh : h < (funcOrigins ops).length) (name : String) (f : Func F W) :
    S.lookup h name = some f ↔ LastRegistered ops h name f := lookup_iff hS hh name f

/-- C113: it does not find a function exactly if none has been registered. -/
theorem C113_not_found (ops : List (FuncOp F W)) (S : Shared (Func F W)) (hS : runFuncs ops = some S) (h : ℕ)
    (hh : h < (funcOrigins ops).length) (name : String) :
    S.lookup h name = none ↔ ∀ k f, .register k name f ∈ ops → ¬ Related (funcOrigins ops) h k := by
  have key := fun f => lookup_iff hS hh name f
  constructor
  · intro hn
    -- the last of the registrations would be found
    have : ∀ (after before : List (FuncOp F W)), ops = before ++ after → ∀ k f, .register k name f ∈ after →
        ¬ Related (funcOrigins ops) h k := by
      intro after
      induction after with
      | nil => intro _ _ k f hk; cases hk
      | cons op after ih =>
        intro before e k f hk hr
        have later := ih (before ++ [op]) (by simp [e])
        rcases List.mem_cons.1 hk with rfl | hk
        · have := (key f).2 ⟨before, k, after, e, hr, later⟩
          rw [hn] at this
          cases this
        · exact later k f hk hr
    exact this ops [] rfl
  · intro hall
    cases hx : S.lookup h name with
    | none => rfl
    | some f =>
      obtain ⟨before, k, after, e, hr, -⟩ := (key f).1 hx
      exact absurd hr (hall k f (by simp [e]))

/-- C113: all calls succeed for registries that have been made. -/
theorem C113_defined (ops : List (FuncOp F W)) :
    (∃ S, runFuncs ops = some S) ↔
      ∀ before op after, ops = before ++ op :: after → ∀ h, funcHandle op = some h → h < (funcOrigins before).length := by
  induction ops using List.reverseRecOn with
  | nil => simp [runFuncs]
  | append_singleton ops op ih =>
    have step : ∀ S, runFuncs ops = some S → ((∃ S', op.run S = some S') ↔
        ∀ h, funcHandle op = some h → h < (funcOrigins ops).length) := by
      intro S hS
      have I := funcInv ops S hS
      have get : ∀ h, (∃ m, S.handles[h]? = some m) ↔ h < (funcOrigins ops).length := by
        intro h
        rw [← I.good.length]
        constructor
        · rintro ⟨m, hm⟩; exact (List.getElem?_eq_some_iff.1 hm).1
        · intro hlt; exact ⟨_, List.getElem?_eq_getElem hlt⟩
      cases op with
      | new => simp [FuncOp.run, funcHandle]
      | copy h => simp [FuncOp.run, funcHandle, Shared.copy, ← get]
      | register h n f => simp [FuncOp.run, funcHandle, Shared.set, ← get]
    rw [runFuncs_snoc]
    constructor
    · rintro ⟨S', h⟩ before x after e
      rw [Option.bind_eq_some_iff] at h
      obtain ⟨S, hS, hop⟩ := h
      rcases split_snoc e with ⟨-, rfl, rfl⟩ | ⟨after', -, rfl⟩
      · exact (step S hS).1 ⟨S', hop⟩
      · exact ih.1 ⟨S, hS⟩ before x after' rfl
    · intro hall
      obtain ⟨S, hS⟩ := ih.2 fun before x after e => hall before x (after ++ [op]) (by simp [e])
      obtain ⟨S', hS'⟩ := (step S hS).2 (hall ops op [] rfl)
      exact ⟨S', by rw [hS, Option.bind_some]; exact hS'⟩

/-- C113: a call in a setup file is accepted exactly if a function has been registered under the name and the number of arguments is right,
and it then evaluates the arguments in order, converts them to the types of the parameters, and calls the function registered last. -/
theorem C113_call (ops : List (FuncOp F W)) (S : Shared (Func F W)) (hS : runFuncs ops = some S) (h : ℕ)
    (hh : h < (funcOrigins ops).length) (name : String) (args : List (Expr F W)) :
    ((∃ e, getExpression (S.lookup h) name args = some e) ↔
      ∃ f, LastRegistered ops h name f ∧ f.params.length = args.length) ∧
    ∀ e f, getExpression (S.lookup h) name args = some e → LastRegistered ops h name f → e.ty = f.result ∧
      ∀ (O : FloatOps F) (σ : State F W), e.eval O σ =
        (args.mapM fun a : Expr F W => a.eval O σ).bind fun vs => (convertArgs O f.params vs).bind (f.call σ.world) := by
  constructor
  · unfold getExpression
    constructor
    · rintro ⟨e, he⟩
      rw [Option.bind_eq_some_iff] at he
      obtain ⟨f, hf, he⟩ := he
      rw [Option.map_eq_some_iff] at he
      obtain ⟨as, has, -⟩ := he
      refine ⟨f, (lookup_iff hS hh name f).1 hf, ?_⟩
      exact (Lemma.Deck.makeList_isSome f.params args).1 (by rw [has]; rfl)
    · rintro ⟨f, hf, hl⟩
      rw [(lookup_iff hS hh name f).2 hf, Option.bind_some]
      obtain ⟨as, has⟩ := Option.isSome_iff_exists.1 ((Lemma.Deck.makeList_isSome f.params args).2 hl)
      rw [has]
      exact ⟨_, rfl⟩
  · intro e f he hf
    unfold getExpression at he
    rw [(lookup_iff hS hh name f).2 hf, Option.bind_some, Option.map_eq_some_iff] at he
    obtain ⟨as, has, rfl⟩ := he
    refine ⟨rfl, fun O σ => ?_⟩
    rw [Expr.eval, Lemma.Deck.makeList_eval' O σ f.params args as has, Option.bind_assoc]

/-- A list of functions is registered in registry `h`: they are then found in all related registries, and nothing else changes. -/
theorem register_list (ops : List (FuncOp F W)) (S : Shared (Func F W)) (hS : runFuncs ops = some S) (h : ℕ)
    (hh : h < (funcOrigins ops).length) (l : List (String × Func F W)) (hl : (l.map Prod.fst).Nodup) :
    ∃ S', runFuncs (ops ++ registerList h l) = some S' ∧
      (∀ k, Related (funcOrigins ops) h k → (∀ p ∈ l, S'.lookup k p.1 = some p.2) ∧
        ∀ n, n ∉ l.map Prod.fst → S'.lookup k n = S.lookup k n) ∧
      ∀ k, ¬ Related (funcOrigins ops) h k → ∀ n, S'.lookup k n = S.lookup k n := by
  have I := funcInv ops S hS
  have hlt : h < S.handles.length := by rw [I.good.length]; exact hh
  have hm := List.getElem?_eq_getElem hlt
  obtain ⟨S', a1, a2, -, a4⟩ := run_registerList h _ l S hm (I.good.valid _ _ hm)
  refine ⟨S', ?_, ?_, ?_⟩
  · have : runFuncs (ops ++ registerList h l) = (runFuncs ops).bind fun S => (registerList h l).foldlM FuncOp.run S := by
      unfold runFuncs
      rw [List.foldlM_append]
      rfl
    rw [this, hS, Option.bind_some]
    exact a1
  · intro k hk
    rw [related_iff I.good hm] at hk
    constructor
    · intro p hp
      rw [lookup_eq, a2, hk, Option.bind_some, a4, if_pos rfl, entry_mem hl (n := p.1) (v := p.2) hp]
      rfl
    · intro n hn
      rw [lookup_eq, lookup_eq, a2, hk, Option.bind_some, Option.bind_some, a4, if_pos rfl, entry_not_mem hn]
      rfl
  · intro k hk n
    rw [lookup_eq, lookup_eq, a2]
    cases hx : S.handles[k]? with
    | none => rfl
    | some m =>
      rw [related_iff I.good hm, hx] at hk
      rw [Option.bind_some, Option.bind_some, a4, if_neg fun e => hk (by rw [e])]

theorem names_cMath (L : MathLib F) : ((cMathFunctions L : List (String × Func F W)).map Prod.fst) = documentedCMath := rfl

theorem names_utility (O : FloatOps F) (L : MathLib F) :
    ((utilityFunctions O L : List (String × Func F W)).map Prod.fst) = documentedUtility := rfl

theorem names_special (O : FloatOps F) (L : MathLib F) :
    ((specialFunctions O L : List (String × Func F W)).map Prod.fst) = documentedSpecial := rfl

theorem registerAll_eq (O : FloatOps F) (L : MathLib F) (h : ℕ) : (registerAllFunctions O L h : List (FuncOp F W)) =
    registerList h (cMathFunctions L ++ utilityFunctions O L ++ specialFunctions O L) := by
  simp [registerAllFunctions, registerList]

theorem all_nodup : (documentedCMath ++ documentedUtility ++ documentedSpecial).Nodup := by decide +kernel

/-- C113: `registerAllFunctions` makes the documented functions available in the registry and in all related ones. Each has the parameters
and the result one expects. No other name is touched, and no other registry. -/
theorem C113_standard_functions (O : FloatOps F) (L : MathLib F) (hL : ∀ x y, L.lt x y = true → L.lt y x = false)
    (ops : List (FuncOp F W)) (S : Shared (Func F W)) (hS : runFuncs ops = some S) (h : ℕ) (hh : h < (funcOrigins ops).length) :
    ∃ S', runFuncs (ops ++ registerAllFunctions O L h) = some S' ∧
      (∀ k, Related (funcOrigins ops) h k →
        (∀ n ∈ documentedCMath ++ documentedUtility ++ documentedSpecial, ∃ f, S'.lookup k n = some f) ∧
        (∀ n args y, Returns O L n args y → ∃ f, S'.lookup k n = some f ∧ f.params = args.map Val.ty ∧ f.result = .float ∧
          f.updateAlways = false ∧ ∀ w, f.call w args = some (.float y)) ∧
        ∀ n, n ∉ documentedCMath ++ documentedUtility ++ documentedSpecial → S'.lookup k n = S.lookup k n) ∧
      ∀ k, ¬ Related (funcOrigins ops) h k → ∀ n, S'.lookup k n = S.lookup k n := by
  have names : ((cMathFunctions L ++ utilityFunctions O L ++ specialFunctions O L : List (String × Func F W)).map Prod.fst) =
      documentedCMath ++ documentedUtility ++ documentedSpecial := rfl
  obtain ⟨S', a1, a2, a3⟩ := register_list ops S hS h hh (cMathFunctions L ++ utilityFunctions O L ++ specialFunctions O L)
    (by rw [names]; exact all_nodup)
  rw [registerAll_eq]
  refine ⟨S', a1, ?_, a3⟩
  intro k hk
  obtain ⟨b1, b2⟩ := a2 k hk
  refine ⟨?_, ?_, ?_⟩
  · intro n hn
    rw [← names] at hn
    obtain ⟨p, hp, rfl⟩ := List.mem_map.1 hn
    exact ⟨p.2, b1 p hp⟩
  · have irr : ∀ x, L.lt x x = false := by
      intro x
      cases hx : L.lt x x with
      | false => rfl
      | true => have := hL x x hx; rw [hx] at this; exact this
    have get : ∀ n f, (n, f) ∈ (cMathFunctions L ++ utilityFunctions O L ++ specialFunctions O L : List (String × Func F W)) →
        S'.lookup k n = some f := fun n f hp => b1 (n, f) hp
    intro n args y hy
    cases hy with
    | minLeft y z hlt =>
      exact ⟨_, get _ _ (by simp [cMathFunctions, utilityFunctions, specialFunctions]; rfl), rfl, rfl, rfl, fun w => by
        simp [binaryFunc, internalMin, hL _ _ hlt]⟩
    | minRight x _ hlt =>
      exact ⟨_, get _ _ (by simp [cMathFunctions, utilityFunctions, specialFunctions]; rfl), rfl, rfl, rfl, fun w => by
        simp [binaryFunc, internalMin, hlt]⟩
    | minSame x =>
      exact ⟨_, get _ _ (by simp [cMathFunctions, utilityFunctions, specialFunctions]; rfl), rfl, rfl, rfl, fun w => by
        simp [binaryFunc, internalMin]⟩
    | maxLeft y z hlt =>
      exact ⟨_, get _ _ (by simp [cMathFunctions, utilityFunctions, specialFunctions]; rfl), rfl, rfl, rfl, fun w => by
        simp [binaryFunc, internalMax, hL _ _ hlt]⟩
    | maxRight x _ hlt =>
      exact ⟨_, get _ _ (by simp [cMathFunctions, utilityFunctions, specialFunctions]; rfl), rfl, rfl, rfl, fun w => by
        simp [binaryFunc, internalMax, hlt]⟩
    | maxSame x =>
      exact ⟨_, get _ _ (by simp [cMathFunctions, utilityFunctions, specialFunctions]; rfl), rfl, rfl, rfl, fun w => by
        simp [binaryFunc, internalMax]⟩
    | minI i j =>
      refine ⟨_, get _ _ (by simp [cMathFunctions, utilityFunctions, specialFunctions]; rfl), rfl, rfl, rfl, fun w => ?_⟩
      simp only [intIntFunc, internalMinI, Option.some.injEq, Val.float.injEq]
      congr 1
      by_cases hij : j < i
      · rw [if_pos hij, min_eq_right (by omega)]
      · rw [if_neg hij, min_eq_left (by omega)]
    | maxI i j =>
      refine ⟨_, get _ _ (by simp [cMathFunctions, utilityFunctions, specialFunctions]; rfl), rfl, rfl, rfl, fun w => ?_⟩
      simp only [intIntFunc, internalMaxI, Option.some.injEq, Val.float.injEq]
      congr 1
      by_cases hij : i < j
      · rw [if_pos hij, max_eq_right (by omega)]
      · rw [if_neg hij, max_eq_left (by omega)]
    | normal x sigma m y hy =>
      subst hy
      exact ⟨_, get _ _ (by simp [cMathFunctions, utilityFunctions, specialFunctions]; rfl), rfl, rfl, rfl, fun w => rfl⟩
    | _ => exact ⟨_, get _ _ (by simp [cMathFunctions, utilityFunctions, specialFunctions]; rfl), rfl, rfl, rfl, fun w => rfl⟩
  · intro n hn
    exact b2 n (by rw [names]; exact hn)

/-- C113: so do `registerCMath`, `registerUtilityFunctions` and `registerSpecialFunctions`, each for the functions it is documented to
register. -/
theorem C113_standard_groups (O : FloatOps F) (L : MathLib F) (ops : List (FuncOp F W)) (S : Shared (Func F W))
    (hS : runFuncs ops = some S) (h : ℕ) (hh : h < (funcOrigins ops).length) (group : List (String × Func F W)) (documented : List String)
    (hg : (group, documented) ∈ [(cMathFunctions L, documentedCMath), (utilityFunctions O L, documentedUtility),
      (specialFunctions O L, documentedSpecial)]) :
    ∃ S' A, runFuncs (ops ++ registerList h group) = some S' ∧ runFuncs (ops ++ registerAllFunctions O L h) = some A ∧
      ∀ k n, S'.lookup k n = if n ∈ documented then A.lookup k n else S.lookup k n := by
  have names : ((cMathFunctions L ++ utilityFunctions O L ++ specialFunctions O L : List (String × Func F W)).map Prod.fst) =
      documentedCMath ++ documentedUtility ++ documentedSpecial := rfl
  obtain ⟨A, c1, c2, c3⟩ := register_list ops S hS h hh (cMathFunctions L ++ utilityFunctions O L ++ specialFunctions O L)
    (by rw [names]; exact all_nodup)
  have hgroup : group.map Prod.fst = documented ∧ (∀ p ∈ group, p ∈ cMathFunctions L ++ utilityFunctions O L ++ specialFunctions O L) ∧
      documented.Nodup := by
    simp only [List.mem_cons, Prod.mk.injEq, List.not_mem_nil, or_false] at hg
    rcases hg with ⟨rfl, rfl⟩ | ⟨rfl, rfl⟩ | ⟨rfl, rfl⟩
    · exact ⟨rfl, fun p hp => by simp [hp], by decide +kernel⟩
    · exact ⟨rfl, fun p hp => by simp [hp], by decide +kernel⟩
    · exact ⟨rfl, fun p hp => by simp [hp], by decide +kernel⟩
  obtain ⟨g1, g2, g3⟩ := hgroup
  obtain ⟨S', a1, a2, a3⟩ := register_list ops S hS h hh group (by rw [g1]; exact g3)
  refine ⟨S', A, a1, by rw [registerAll_eq]; exact c1, ?_⟩
  intro k n
  by_cases hk : Related (funcOrigins ops) h k
  · by_cases hn : n ∈ documented
    · rw [if_pos hn]
      rw [← g1] at hn
      obtain ⟨p, hp, rfl⟩ := List.mem_map.1 hn
      rw [(a2 k hk).1 p hp, (c2 k hk).1 p (g2 p hp)]
    · rw [if_neg hn]
      exact (a2 k hk).2 n (by rw [g1]; exact hn)
  · rw [a3 k hk, c3 k hk, ite_self]

/-! ## block classes -/

variable {B : Type}

/-- C114: a block class is known exactly if `registerBlock` or `get` has been called for it, in this registry or a related one. `hasChild`
then says whether the child has been added since the class was registered last; otherwise it throws. -/
theorem C114_children (ops : List (ClassOp B)) (C : Classes B) (hC : runClasses ops = some C) (h : ℕ)
    (hh : h < (classOrigins ops).length) (parent child : String) :
    (C.hasChild h parent child = none ↔ ∀ k, Related (classOrigins ops) h k →
      .registerBlock k parent ∉ ops ∧ .get k parent ∉ ops) ∧
    (C.hasChild h parent child = some true ↔ ∃ r, RefersTo ops h parent r ∧ .addChild r child ∈ ops) := by
  have I := classInv ops C hC
  have hlt : h < C.shared.handles.length := by rw [I.good.length]; exact hh
  have hm := List.getElem?_eq_getElem hlt
  have hfind : C.find h parent = (at_ C.shared C.shared.handles[h] parent).bind fun d => C.descriptors[d]? := by
    rw [Classes.find, lookup_eq, hm, Option.bind_some]
  constructor
  · have : C.hasChild h parent child = none ↔ ¬ ∃ d, at_ C.shared C.shared.handles[h] parent = some d := by
      rw [Classes.hasChild, Option.map_eq_none_iff, hfind]
      cases hx : at_ C.shared C.shared.handles[h] parent with
      | none => simp
      | some d =>
        have := I.bound _ _ _ hx
        simp [List.getElem?_eq_getElem this]
    rw [this, I.known]
    simp only [related_iff I.good hm]
    constructor
    · intro hno k hk
      -- the last call that has registered the class gives a reference
      have : ∀ (after before : List (ClassOp B)), ops = before ++ after → ∀ k, C.shared.handles[k]? = some C.shared.handles[h] →
          .registerBlock k parent ∉ after ∧ .get k parent ∉ after := by
        intro after
        induction after with
        | nil => intro _ _ k _; simp
        | cons op after ih =>
          intro before e k hk
          have later := ih (before ++ [op]) (by simp [e])
          obtain ⟨l1, l2⟩ := later k hk
          constructor
          · intro hmem
            rcases List.mem_cons.1 hmem with rfl | hmem
            · exact hno ⟨_, before, k, after, Or.inl e, rfl, hk, fun k' hk' he => (later k' he).1 hk'⟩
            · exact l1 hmem
          · intro hmem
            rcases List.mem_cons.1 hmem with rfl | hmem
            · exact hno ⟨_, before, k, after, Or.inr e, rfl, hk, fun k' hk' he => (later k' he).1 hk'⟩
            · exact l2 hmem
      exact this ops [] rfl k hk
    · rintro hall ⟨r, before, k, after, e, -, hk, -⟩
      obtain ⟨h1, h2⟩ := hall k hk
      rcases e with rfl | rfl
      · exact h1 (by simp)
      · exact h2 (by simp)
  · simp only [refersTo_iff I hm]
    rw [Classes.hasChild, hfind]
    cases hx : at_ C.shared C.shared.handles[h] parent with
    | none =>
      simp only [Option.bind_none, Option.map_none, reduceCtorEq, false_iff]
      rintro ⟨r, hr, -⟩
      obtain ⟨d, hd⟩ := (I.known _ _).2 ⟨r, hr⟩
      rw [hx] at hd
      cases hd
    | some d =>
      have hb := I.bound _ _ _ hx
      rw [Option.bind_some, List.getElem?_eq_getElem hb]
      simp only [Option.map_some, Option.some.injEq, List.contains_iff_mem]
      rw [I.children d _ (List.getElem?_eq_getElem hb) child]
      simp only [I.refsOf _ _ _ hx]

/-- C114: the C++ class of a block class is the one that has been set last since the class was registered last. -/
theorem C114_factory (ops : List (ClassOp B)) (C : Classes B) (hC : runClasses ops = some C) (h : ℕ)
    (hh : h < (classOrigins ops).length) (name : String) (b : B) :
    (C.find h name).bind Descriptor.factory = some b ↔ LastSet ops h name b := by
  have I := classInv ops C hC
  have hlt : h < C.shared.handles.length := by rw [I.good.length]; exact hh
  have hm := List.getElem?_eq_getElem hlt
  unfold LastSet
  simp only [refersTo_iff I hm]
  rw [Classes.find, lookup_eq, hm, Option.bind_some]
  cases hx : at_ C.shared C.shared.handles[h] name with
  | none =>
    simp only [Option.bind_none, reduceCtorEq, false_iff]
    rintro ⟨_, r, _, -, hr, -⟩
    obtain ⟨d, hd⟩ := (I.known _ _).2 ⟨r, hr⟩
    rw [hx] at hd
    cases hd
  | some d =>
    have hb := I.bound _ _ _ hx
    rw [Option.bind_some, List.getElem?_eq_getElem hb, Option.bind_some, I.factory d _ (List.getElem?_eq_getElem hb) b]
    simp only [← I.refsOf _ _ _ hx, ne_eq]

/-- C114: a program that does not register a class that is known already runs without undefined behaviour, and whatever child it has
added with a reference to a class is allowed for that class. -/
theorem C114_kept_partial (ops : List (ClassOp B)) (hops : RegistersOnce ops) :
    ∃ C, runClasses ops = some C ∧ ∀ (before : List (ClassOp B)) (k : ℕ) (parent : String) (after : List (ClassOp B)),
      (ops = before ++ .registerBlock k parent :: after ∨ ops = before ++ .get k parent :: after) →
      ∀ child, .addChild (references before) child ∈ ops → ∀ h, Related (classOrigins ops) k h → C.hasChild h parent child = some true := by
  obtain ⟨C, hC, -⟩ := run_defined ops hops
  refine ⟨C, hC, ?_⟩
  intro before k parent after e child hchild h hr
  have I := classInv ops C hC
  obtain ⟨m, hmk⟩ := I.usedH k parent (by rcases e with rfl | rfl <;> simp)
  have hmh := (related_iff I.good hmk h).1 hr
  have hh : h < (classOrigins ops).length := by rw [← I.good.length]; exact (List.getElem?_eq_some_iff.1 hmh).1
  rw [(C114_children ops C hC h hh parent child).2]
  refine ⟨_, ⟨before, k, after, e, rfl, hr.symm, ?_⟩, hchild⟩
  intro k' hk' hr'
  obtain ⟨b2, a2, rfl⟩ := List.append_of_mem hk'
  have hrel : Related (classOrigins ops) k' k := (hr'.symm).trans _ _ _ hr.symm
  rcases e with rfl | rfl
  · obtain ⟨-, h2⟩ := hops (before ++ .registerBlock k parent :: b2) (.registerBlock k' parent) a2 (by simp)
    exact (h2 k' parent rfl k hrel).1 (by simp)
  · obtain ⟨-, h2⟩ := hops (before ++ .get k parent :: b2) (.registerBlock k' parent) a2 (by simp)
    exact (h2 k' parent rfl k hrel).2 (by simp)

/-! ## the hypotheses can be met -/

/-- a registry, the copy in a parser, functions registered with either, and one more registry -/
def exampleFuncs : List (FuncOp ℤ Unit) :=
  [.new, .copy 0, .register 0 "f" (unaryFunc fun x => x), .register 1 "f" (unaryFunc fun x => x + 1), .register 0 "g" (unaryFunc fun x => -x),
    .new, .register 2 "f" (unaryFunc fun x => x - 1)]

example : ∃ S, runFuncs exampleFuncs = some S ∧ (funcOrigins exampleFuncs).length = 3 ∧ Related (funcOrigins exampleFuncs) 0 1 ∧
    ¬ Related (funcOrigins exampleFuncs) 0 2 ∧ LastRegistered exampleFuncs 0 "f" (unaryFunc fun x => x + 1) := by
  have hS : ∃ S, runFuncs exampleFuncs = some S := ⟨_, rfl⟩
  obtain ⟨S, hS⟩ := hS
  have I := funcInv _ S hS
  have hh : S.handles = [0, 0, 1] := by
    have := hS
    simp only [runFuncs, exampleFuncs, List.foldlM_cons, List.foldlM_nil, FuncOp.run, Shared.new, Shared.copy, Shared.set, Shared.empty] at this
    simp at this
    rw [← this]
  have h0 : S.handles[0]? = some 0 := by rw [hh]; rfl
  have r1 : Related (funcOrigins exampleFuncs) 0 1 := (related_iff I.good h0 1).2 (by rw [hh]; rfl)
  have r2 : ¬ Related (funcOrigins exampleFuncs) 0 2 := fun h => by
    have := (related_iff I.good h0 2).1 h
    rw [hh] at this
    simp at this
  refine ⟨S, hS, rfl, r1, r2, ?_⟩
  refine ⟨[.new, .copy 0, .register 0 "f" (unaryFunc fun x => x)], 1,
    [.register 0 "g" (unaryFunc fun x => -x), .new, .register 2 "f" (unaryFunc fun x => x - 1)], rfl, r1, ?_⟩
  intro k' g hk'
  simp only [List.mem_cons, FuncOp.register.injEq, reduceCtorEq, List.not_mem_nil, or_false, false_or] at hk'
  rcases hk' with ⟨-, h, -⟩ | ⟨rfl, -⟩
  · simp at h
  · exact r2

/-- a library with a comparison that is asymmetric -/
def exampleLib : MathLib ℤ where
  cos x := x
  sin x := x
  tan x := x
  acos x := x
  asin x := x
  atan x := x
  atan2 x y := x - y
  cosh x := x
  sinh x := x
  tanh x := x
  exp x := x
  ldexp x i := x + i
  log x := x
  log10 x := x
  pow x y := x + y
  sqrt x := x
  ceil x := x
  fabs x := x
  floor x := x
  fmod x y := x % y
  tgamma x := x
  lgamma x := x
  digamma x := x
  cyl_bessel_j i x := i + x
  cyl_neumann i x := i - x
  lt x y := decide (x < y)
  two := 2

example : ∀ x y, exampleLib.lt x y = true → exampleLib.lt y x = false := by
  intro x y h
  simp [exampleLib] at h ⊢
  omega

/-- block classes with children and a C++ class, described in the registry and in a copy -/
def exampleClasses : List (ClassOp ℕ) :=
  [.new, .copy 0, .registerBlock 0 "sim", .addChild 0 "field", .addChild 0 "diag", .get 1 "field", .setClass 1 7, .get 1 "sim",
    .addChild 2 "species"]

example : RegistersOnce exampleClasses ∧ ∃ C, runClasses exampleClasses = some C ∧ C.hasChild 1 "sim" "diag" = some true ∧
    C.hasChild 0 "sim" "species" = some true ∧ C.hasChild 0 "sim" "other" = some false ∧ C.hasChild 0 "other" "sim" = none ∧
    (C.find 0 "field").bind Descriptor.factory = some 7 := by
  constructor
  · intro before op after e
    have hb : before = exampleClasses.take before.length := by rw [e]; simp
    have ho : exampleClasses[before.length]? = some op := by rw [e]; simp
    have hlt : before.length < 9 := (List.getElem?_eq_some_iff.1 ho).1
    generalize before.length = i at hb ho hlt
    subst hb
    have hdec : i = 0 ∨ i = 1 ∨ i = 2 ∨ i = 3 ∨ i = 4 ∨ i = 5 ∨ i = 6 ∨ i = 7 ∨ i = 8 := by omega
    rcases hdec with rfl | rfl | rfl | rfl | rfl | rfl | rfl | rfl | rfl <;>
      (simp only [exampleClasses, List.getElem?_cons_zero, List.getElem?_cons_succ, Option.some.injEq] at ho
       subst ho
       refine ⟨by simp [Usable, exampleClasses, classOrigins, references], ?_⟩
       simp [exampleClasses])
  · exact ⟨_, rfl, by decide +kernel, by decide +kernel, by decide +kernel, by decide +kernel, by decide +kernel⟩

/-! ## what does not hold -/

/-- C114 does not hold in full: registering a class again discards the children it had. -/
theorem C114_violated_again : (runClasses ([.new, .registerBlock 0 "sim", .addChild 0 "field", .registerBlock 0 "sim"] : List (ClassOp ℕ))).map
    (fun C => C.hasChild 0 "sim" "field") = some (some false) := by decide +kernel

/-- C114 does not hold in full: using the reference that was returned before is undefined behaviour. -/
theorem C114_violated_dangling :
    (runClasses ([.new, .registerBlock 0 "sim", .registerBlock 0 "sim", .addChild 0 "field"] : List (ClassOp ℕ))).isNone := by
  decide +kernel

end Schnek.Props
