import Verif.Lemma.DeckRun
import Verif.Props.Dependencies

namespace Schnek.Lemma.Deck

open Schnek.Deck Schnek.Spec Relation DeckState DepMap

variable {F W : Type}

/-! ## the dependency map can be created -/

theorem addVars_some (σ : State F W) (hid : GoodIds σ) (expr : Var → Expr F W) (dummy : Var) (l : List Var) :
    ∀ M : DepMap, l.Nodup → (∀ v ∈ l, σ.id v ∉ M.keys) → ∃ M', l.foldlM (addVar σ expr dummy) M = some M' := by
  induction l with
  | nil => intro M _ _; exact ⟨M, rfl⟩
  | cons v l ih =>
    intro M hn hM
    rw [List.nodup_cons] at hn
    rw [List.foldlM_cons]
    unfold addVar
    by_cases hf : σ.fixed v = true
    · rw [if_pos hf]
      exact ih M hn.2 fun w hw => hM w (List.mem_cons_of_mem _ hw)
    · rw [if_neg hf, if_neg (hM v List.mem_cons_self)]
      refine ih _ hn.2 ?_
      intro w hw
      simp only [Finset.mem_insert, not_or]
      refine ⟨fun e => ?_, hM w (List.mem_cons_of_mem _ hw)⟩
      rw [hid.inj e] at hw
      exact hn.1 hw

theorem create_some (σ : State F W) (hid : GoodIds σ) (expr : Var → Expr F W) (dummy : Var) (t : Tree) (hn : (allVars t).Nodup)
    (hd : dummy ∉ allVars t) : ∃ M, DepMap.create σ expr dummy t = some M := by
  obtain ⟨M, hM⟩ := addVars_some σ hid expr dummy (allVars t) (initial σ dummy) hn (by
    intro v hv
    simp only [DepMap.initial, Finset.mem_singleton]
    intro e
    rw [hid.inj e] at hv
    exact hd hv)
  refine ⟨setModifies M, ?_⟩
  unfold DepMap.create constructMap
  rw [Dep.addTree_eq, hM]
  rfl

/-! ## the tree of variables -/

theorem parent_unique {S : Storage} {p q b : ℕ} (h : DirectlyIn S p b) (h' : DirectlyIn S q b) : p = q := by
  rw [Vars.directlyIn_iff] at h h'
  rw [h, Option.some.injEq] at h'
  exact h'

theorem siblings {S : Storage} (hS : Vars.Inv S) {b c c' d : ℕ} (hc : DirectlyIn S b c) (hc' : DirectlyIn S b c')
    (hd : Encloses S c d) (hd' : Encloses S c' d) : c = c' := by
  have key : ∀ d, Encloses S c d → Encloses S c' d → Encloses S c c' ∨ Encloses S c' c := by
    intro d hd
    induction hd with
    | refl => intro h; exact Or.inr h
    | @tail x y _ hxy ih =>
      intro h
      rw [Vars.encloses_cases] at h
      rcases h with h | ⟨p, hp, h⟩
      · left; rw [h]; exact ReflTransGen.tail ‹_› hxy
      · rw [parent_unique hp hxy] at h
        exact ih h
  have strict : ∀ c c', DirectlyIn S b c → DirectlyIn S b c' → Encloses S c c' → c = c' := by
    intro c c' hc hc' h
    rw [Vars.encloses_cases] at h
    rcases h with h | ⟨p, hp, h⟩
    · exact h
    · rw [parent_unique hp hc'] at h
      have h1 := Vars.encloses_le hS h
      have h2 := hS.parent _ _ hc
      omega
  rcases key d hd hd' with h | h
  · exact strict c c' hc hc' h
  · exact (strict c' c hc' hc h).symm

theorem mem_allVarsList (v : Var) : ∀ ts : List Tree, v ∈ allVarsList ts ↔ ∃ t ∈ ts, v ∈ allVars t
  | [] => by simp [allVarsList]
  | t :: ts => by
      rw [allVarsList, List.mem_append, mem_allVarsList v ts]
      simp

theorem nodup_allVarsList : ∀ ts : List Tree, (∀ t ∈ ts, (allVars t).Nodup) →
    ts.Pairwise (fun t t' => ∀ v, v ∈ allVars t → v ∉ allVars t') → (allVarsList ts).Nodup
  | [], _, _ => by simp [allVarsList]
  | t :: ts, h, hp => by
      rw [allVarsList, List.nodup_append]
      rw [List.pairwise_cons] at hp
      refine ⟨h t List.mem_cons_self, nodup_allVarsList ts (fun t ht => h t (List.mem_cons_of_mem _ ht)) hp.2, ?_⟩
      intro v hv w hw e
      obtain ⟨t', ht', hw⟩ := (mem_allVarsList w ts).mp hw
      exact hp.1 t' ht' v hv (e ▸ hw)

theorem mem_children {S : Storage} (hS : Vars.Inv S) {b : ℕ} {B : BlockVars} (hb : S.blocks[b]? = some B) (c : ℕ) :
    c ∈ B.children ↔ DirectlyIn S b c := by
  rw [hS.children b B hb, List.mem_map]
  constructor
  · rintro ⟨⟨n, c'⟩, hm, rfl⟩
    obtain ⟨C, h1, h2, -⟩ := (hS.child b B hb n c').mp hm
    exact ⟨C, h1, h2⟩
  · rintro ⟨C, h1, h2⟩
    exact ⟨(C.name, c), (hS.child b B hb C.name c).mpr ⟨C, h1, h2, rfl⟩, rfl⟩

theorem nodup_children {S : Storage} (hS : Vars.Inv S) {b : ℕ} {B : BlockVars} (hb : S.blocks[b]? = some B) :
    B.children.Nodup := by
  rw [hS.children b B hb]
  have h1 := hS.names b B hb
  refine List.Nodup.map_on ?_ (List.Nodup.of_map _ h1)
  rintro ⟨n, c⟩ hm ⟨n', c'⟩ hm' (rfl : c = c')
  obtain ⟨C, a1, -, a2⟩ := (hS.child b B hb n c).mp hm
  obtain ⟨C', b1, -, b2⟩ := (hS.child b B hb n' c).mp hm'
  rw [a1, Option.some.injEq] at b1
  rw [← a2, ← b2, b1]

theorem mem_blockTree {S : Storage} (hS : Vars.Inv S) (v : Var) (n b : ℕ) (hn : S.blocks.length ≤ b + n) :
    v ∈ allVars (blockTree S n b) ↔ ∃ d m, Encloses S b d ∧ Declares S d m v := by
  induction n generalizing b with
  | zero =>
    simp only [blockTree, allVars, allVarsList, List.append_nil, List.not_mem_nil, false_iff]
    rintro ⟨d, m, h1, B, h2, -⟩
    have := Vars.encloses_le hS h1
    have := (List.getElem?_eq_some_iff.mp h2).1
    omega
  | succ n ih =>
    rw [blockTree]
    rcases hb : S.blocks[b]? with _ | B
    · simp only [allVars, allVarsList, List.append_nil, List.not_mem_nil, false_iff]
      rintro ⟨d, m, h1, B, h2, -⟩
      have := Vars.encloses_le hS h1
      have := (List.getElem?_eq_some_iff.mp h2).1
      have := List.getElem?_eq_none_iff.mp hb
      omega
    · simp only [allVars, List.mem_append, mem_allVarsList, List.mem_map]
      constructor
      · rintro (⟨⟨m, v'⟩, hm, rfl⟩ | ⟨_, ⟨c, hc, rfl⟩, hv⟩)
        · exact ⟨b, m, .refl, B, hb, hm⟩
        · have hd := (mem_children hS hb c).mp hc
          have := hS.parent _ _ hd
          obtain ⟨d, m, h1, h2⟩ := (ih c (by omega)).mp hv
          exact ⟨d, m, ReflTransGen.head hd h1, h2⟩
      · rintro ⟨d, m, h1, h2⟩
        rcases ReflTransGen.cases_head h1 with rfl | ⟨c, hc, h1⟩
        · left
          obtain ⟨B', hB', hv⟩ := h2
          rw [hb, Option.some.injEq] at hB'
          exact ⟨(m, v), hB' ▸ hv, rfl⟩
        · right
          have := hS.parent _ _ hc
          exact ⟨_, ⟨c, (mem_children hS hb c).mpr hc, rfl⟩, (ih c (by omega)).mpr ⟨d, m, h1, h2⟩⟩

theorem nodup_blockTree {S : Storage} (hS : Vars.Inv S)
    (once : ∀ b n b' n' v, Declares S b n v → Declares S b' n' v → b = b' ∧ n = n') (n b : ℕ) (hn : S.blocks.length ≤ b + n) :
    (allVars (blockTree S n b)).Nodup := by
  induction n generalizing b with
  | zero => simp [blockTree, allVars, allVarsList]
  | succ n ih =>
    rw [blockTree]
    rcases hb : S.blocks[b]? with _ | B
    · simp [allVars, allVarsList]
    · simp only [allVars]
      rw [List.nodup_append]
      refine ⟨?_, ?_, ?_⟩
      · refine List.Nodup.map_on ?_ (List.Nodup.of_map _ (hS.vars b B hb))
        rintro ⟨m, v⟩ hm ⟨m', v'⟩ hm' (rfl : v = v')
        have := (once b m b m' v ⟨B, hb, hm⟩ ⟨B, hb, hm'⟩).2
        rw [this]
      · apply nodup_allVarsList
        · intro t ht
          obtain ⟨c, hc, rfl⟩ := List.mem_map.mp ht
          have := hS.parent _ _ ((mem_children hS hb c).mp hc)
          exact ih c (by omega)
        · rw [List.pairwise_map]
          refine List.Pairwise.imp_of_mem ?_ (nodup_children hS hb)
          intro c c' hc hc' hne v hv hv'
          have h1 := (mem_children hS hb c).mp hc
          have h2 := (mem_children hS hb c').mp hc'
          have := hS.parent _ _ h1
          have := hS.parent _ _ h2
          obtain ⟨d, m, e1, e2⟩ := (mem_blockTree hS v n c (by omega)).mp hv
          obtain ⟨d', m', e1', e2'⟩ := (mem_blockTree hS v n c' (by omega)).mp hv'
          have hdd := (once d m d' m' v e2 e2').1
          rw [← hdd] at e1'
          exact hne (siblings hS h1 h2 e1 e1')
      · intro v hv w hw e
        obtain ⟨⟨m, v'⟩, hm, rfl⟩ := List.mem_map.mp hv
        obtain ⟨t, ht, hw⟩ := (mem_allVarsList w _).mp hw
        obtain ⟨c, hc, rfl⟩ := List.mem_map.mp ht
        have h1 := (mem_children hS hb c).mp hc
        have := hS.parent _ _ h1
        obtain ⟨d, m', e1, e2⟩ := (mem_blockTree hS w n c (by omega)).mp hw
        simp only at e
        rw [← e] at e2
        have hdd := (once b m d m' v' ⟨B, hb, hm⟩ e2).1
        have := Vars.encloses_le hS e1
        omega

theorem encloses_root {S : Storage} (hS : Vars.Inv S) (b : ℕ) (hb : b < S.blocks.length) : Encloses S 0 b := by
  induction b using Nat.strong_induction_on with
  | _ b ih =>
    rcases Nat.eq_zero_or_pos b with rfl | hpos
    · exact .refl
    · obtain ⟨p, hp⟩ := hS.some_parent b hpos hb
      have := hS.parent _ _ hp
      exact (ih p this (by omega)).tail hp

theorem mem_root {S : Storage} (hS : Vars.Inv S) (v : Var) :
    v ∈ allVars (blockTree S S.blocks.length 0) ↔ ∃ d m, Declares S d m v := by
  rw [mem_blockTree hS v _ 0 (by omega)]
  constructor
  · rintro ⟨d, m, -, h⟩; exact ⟨d, m, h⟩
  · rintro ⟨d, m, h⟩
    refine ⟨d, m, encloses_root hS d ?_, h⟩
    obtain ⟨B, hB, -⟩ := h
    exact (List.getElem?_eq_some_iff.mp hB).1

/-! ## the state -/

theorem state_some {D : DeckState F W} {v : ℕ} {x : Variable F W} (h : D.heap[v]? = some x) :
    D.state.value v = x.value ∧ D.state.fixed v = x.fixed ∧ D.state.id v = x.id := by
  simp [state, h]

theorem state_none {D : DeckState F W} {v : ℕ} (h : D.heap.length ≤ v) :
    D.state.value v = .int 0 ∧ D.state.fixed v = true ∧ D.state.id v = D.nextId + v := by
  have := List.getElem?_eq_none_iff.mpr h
  simp [state, this]

theorem goodIds {D : DeckState F W} (h : DInv D) : GoodIds D.state := by
  have hcase : ∀ v : ℕ, (∃ x : Variable F W, D.heap[v]? = some x ∧ D.state.id v = x.id) ∨ (D.heap.length ≤ v ∧ D.state.id v = D.nextId + v) := by
    intro v
    rcases hv : D.heap[v]? with _ | x
    · exact Or.inr ⟨List.getElem?_eq_none_iff.mp hv, (state_none (List.getElem?_eq_none_iff.mp hv)).2.2⟩
    · exact Or.inl ⟨x, rfl, (state_some hv).2.2⟩
  constructor
  · intro v w e
    rcases hcase v with ⟨x, hx, ex⟩ | ⟨hv, ev⟩ <;> rcases hcase w with ⟨y, hy, ey⟩ | ⟨hw, ew⟩
    · exact h.inj v w x y hx hy (by rw [← ex, ← ey, e])
    · have := h.lt v x hx; rw [ex, ew] at e; omega
    · have := h.lt w y hy; rw [ey, ev] at e; omega
    · rw [ev, ew] at e; have : (v : ℤ) = (w : ℤ) := by omega
      exact_mod_cast this
  · intro v
    rcases hcase v with ⟨x, hx, ex⟩ | ⟨hv, ev⟩
    · rw [ex]; exact h.nonneg v x hx
    · rw [ev]; have := h.next; omega

theorem dinv_withDummy {D : DeckState F W} (h : DInv D) : DInv D.withDummy := by
  refine h.push 0 "" (.ofExpr (.ext .int D.nextExt) true true D.nextId) ?_ rfl (Or.inl rfl) rfl rfl
  exact ⟨fun h => by simp [Variable.ofExpr] at h, fun _ => ⟨_, rfl, rfl⟩⟩

/-! ## mentioned variables -/

mutual

theorem deps_mentioned (σ : State F W) (hid : GoodIds σ) (u : ℕ) : (e : Expr F W) → (σ.id u ∈ e.deps σ ↔ u ∈ mentioned e)
  | .value w => by simp [Expr.deps, mentioned]
  | .ref t x => by
      simp only [Expr.deps, mentioned, List.mem_singleton]
      exact ⟨fun e => hid.inj e, fun e => by rw [e]⟩
  | .ext t x => by simp [Expr.deps, mentioned]
  | .unary op e => by simp only [Expr.deps, mentioned]; exact deps_mentioned σ hid u e
  | .binary op es => by simp only [Expr.deps, mentioned]; exact depsTerms_mentioned σ hid u es
  | .cast t e => by simp only [Expr.deps, mentioned]; exact deps_mentioned σ hid u e
  | .call f args => by
      simp only [Expr.deps, mentioned, List.mem_append, depsArgs_mentioned σ hid u args]
      have : σ.id u ∉ (if f.updateAlways then [-1] else [] : List ℤ) := by
        have := hid.nonneg u
        split <;> simp
        omega
      simp [this]

theorem depsTerms_mentioned (σ : State F W) (hid : GoodIds σ) (u : ℕ) : (es : Terms F W) →
    (σ.id u ∈ es.deps σ ↔ u ∈ mentionedTerms es)
  | .nil => by simp [Terms.deps, mentionedTerms]
  | .cons p e es => by
      simp only [Terms.deps, mentionedTerms, List.mem_append, deps_mentioned σ hid u e, depsTerms_mentioned σ hid u es]

theorem depsArgs_mentioned (σ : State F W) (hid : GoodIds σ) (u : ℕ) : (es : Args F W) →
    (σ.id u ∈ es.deps σ ↔ u ∈ mentionedArgs es)
  | .nil => by simp [Args.deps, mentionedArgs]
  | .cons e es => by
      simp only [Args.deps, mentionedArgs, List.mem_append, deps_mentioned σ hid u e, depsArgs_mentioned σ hid u es]

end

/-! ## the end of `parse` -/

theorem withDummy_get {D : DeckState F W} {v : ℕ} (h : v < D.heap.length) : D.withDummy.heap[v]? = D.heap[v]? :=
  List.getElem?_append_left h

theorem node_iff {D : DeckState F W} (h : DInv D) (v : ℕ) (hv : v ≠ D.heap.length) :
    Node D.withDummy.state D.heap.length (blockTree D.withDummy.store D.withDummy.store.blocks.length 0) v ↔ ∃ e, DefinedBy D v e := by
  unfold Node NonConstant
  rw [mem_root (show Vars.Inv D.withDummy.store from h.store)]
  constructor
  · rintro (h' | ⟨⟨d, m, hd⟩, hf⟩)
    · exact absurd h' hv
    · have hlt := h.bound d m v hd
      obtain ⟨x, hx⟩ : ∃ x, D.heap[v]? = some x := ⟨_, List.getElem?_eq_getElem hlt⟩
      rw [(state_some (by rw [withDummy_get hlt]; exact hx)).2.1] at hf
      obtain ⟨e, he, -⟩ := (h.typed v x hx).2 hf
      exact ⟨e, ⟨d, m, hd⟩, x, hx, hf, he⟩
  · rintro ⟨e, ⟨d, m, hd⟩, x, hx, hf, he⟩
    refine Or.inr ⟨⟨d, m, hd⟩, ?_⟩
    rw [(state_some (by rw [withDummy_get (h.bound d m v hd)]; exact hx)).2.1]
    exact hf

theorem expr_of {D : DeckState F W} (h : DInv D) {v : ℕ} {e : Expr F W} (hd : DefinedBy D v e) : D.withDummy.expr v = e := by
  obtain ⟨⟨d, m, hd⟩, x, hx, -, he⟩ := hd
  unfold expr
  rw [withDummy_get (h.bound d m v hd), hx, Option.bind_some, he]
  rfl

theorem edge_iff {D : DeckState F W} (h : DInv D) (u v : ℕ) (hu : u ≠ D.heap.length) :
    Edge D.withDummy.state D.withDummy.expr D.heap.length (blockTree D.withDummy.store D.withDummy.store.blocks.length 0) u v ↔
      DependsOn D u v := by
  have hid := goodIds (dinv_withDummy h)
  have hne : ∀ v, NonConstant D.withDummy.state (blockTree D.withDummy.store D.withDummy.store.blocks.length 0) v → v ≠ D.heap.length := by
    rintro v ⟨hm, -⟩ hv
    obtain ⟨d, m, hd⟩ := (mem_root (show Vars.Inv D.withDummy.store from h.store) v).mp hm
    exact absurd hv (Nat.ne_of_lt (h.bound d m v hd))
  unfold Edge DependsOn Uses
  rw [node_iff h u hu]
  constructor
  · rintro ⟨h1, h2, h3⟩
    obtain ⟨e, he⟩ := (node_iff h v (hne v h2)).mp (Or.inr h2)
    refine ⟨h1, e, he, ?_⟩
    rw [expr_of h he] at h3
    rcases h3 with h3 | ⟨h3, -⟩
    · exact (deps_mentioned _ hid u e).mp h3
    · exact absurd h3 hu
  · rintro ⟨h1, e, he, hm⟩
    have hv : v ≠ D.heap.length := by
      obtain ⟨⟨d, m, hd⟩, -⟩ := he
      have := h.bound d m v hd
      omega
    refine ⟨h1, ?_, Or.inl ?_⟩
    · rcases (node_iff h v hv).mpr ⟨e, he⟩ with h' | h'
      · exact absurd h' hv
      · exact h'
    · rw [expr_of h he]
      exact (deps_mentioned _ hid u e).mpr hm

theorem cycle_iff {D : DeckState F W} (h : DInv D) :
    (∃ v, TransGen (Edge D.withDummy.state D.withDummy.expr D.heap.length
      (blockTree D.withDummy.store D.withDummy.store.blocks.length 0)) v v) ↔ ∃ v, TransGen (DependsOn D) v v := by
  have hnc : ∀ u v, Edge D.withDummy.state D.withDummy.expr D.heap.length
      (blockTree D.withDummy.store D.withDummy.store.blocks.length 0) u v → v ≠ D.heap.length := by
    rintro u v ⟨-, ⟨hm, -⟩, -⟩ hv
    obtain ⟨d, m, hd⟩ := (mem_root (show Vars.Inv D.withDummy.store from h.store) v).mp hm
    exact absurd hv (Nat.ne_of_lt (h.bound d m v hd))
  constructor
  · rintro ⟨v, hv⟩
    have hvne : v ≠ D.heap.length := by
      rcases TransGen.tail'_iff.mp hv with ⟨u, -, hu⟩
      exact hnc u v hu
    refine ⟨v, ?_⟩
    have : ∀ w, TransGen (Edge D.withDummy.state D.withDummy.expr D.heap.length
        (blockTree D.withDummy.store D.withDummy.store.blocks.length 0)) v w → TransGen (DependsOn D) v w := by
      intro w hw
      induction hw with
      | single h1 => exact .single ((edge_iff h _ _ hvne).mp h1)
      | @tail b c h1 h2 ih =>
        refine ih.tail ((edge_iff h _ _ ?_).mp h2)
        rcases TransGen.tail'_iff.mp h1 with ⟨u, -, hu⟩
        exact hnc u b hu
    exact this v hv
  · rintro ⟨v, hv⟩
    refine ⟨v, TransGen.mono ?_ _ _ hv⟩
    intro a b hab
    have hane : a ≠ D.heap.length := by
      obtain ⟨⟨e, ⟨d, m, hd⟩, -⟩, -⟩ := hab
      exact Nat.ne_of_lt (h.bound d m a hd)
    exact (edge_iff h a b hane).mpr hab

theorem finish_spec (H : Host F W) {D : DeckState F W} (h : DInv D) :
    (∀ D', D.finish H = some D' → D'.store = D.store ∧ D'.tree = D.tree ∧ D'.world = D.world ∧
      (∀ x < D.nextExt, D'.ext x = D.ext x) ∧
      (∀ (v : ℕ) (x : Variable F W), D.heap[v]? = some x → ∃ val, D'.heap[v]? = some { x with value := val } ∧
        (val = x.value ∨ ∃ e, DefinedBy D v e)) ∧
      ∀ v e, DefinedBy D v e → (e.eval H.ops D'.state = some (D'.state.value v) ∨
        (e.eval H.ops D'.state = none ∧ D'.state.value v = D.state.value v))) ∧
    (D.finish H = none ↔ ∃ v, TransGen (DependsOn D) v v) := by
  have hE := dinv_withDummy h
  have hid := goodIds hE
  have hlen : D.withDummy.heap.length = D.heap.length + 1 := by simp [withDummy]
  have hdum : D.heap.length ∉ allVars (blockTree D.withDummy.store D.withDummy.store.blocks.length 0) := by
    intro hm
    obtain ⟨d, m, hd⟩ := (mem_root (show Vars.Inv D.withDummy.store from h.store) _).mp hm
    have := h.bound d m _ hd
    omega
  obtain ⟨M, hM⟩ := create_some D.withDummy.state hid D.withDummy.expr D.heap.length _
    (nodup_blockTree (show Vars.Inv D.withDummy.store from h.store) h.once D.withDummy.store.blocks.length 0 (by omega)) hdum
  have hdx : ∃ x, D.withDummy.expr D.heap.length = .ext .int x := by
    refine ⟨D.nextExt, ?_⟩
    simp [expr, withDummy, Variable.ofExpr]
  obtain ⟨s1, s2⟩ := Props.C57_update_all_partial H.ops D.withDummy.state D.withDummy.expr D.heap.length _ M hid hdx hM
  have hfin : D.finish H = (updateAll H.ops D.withDummy.expr M M.keys D.withDummy.state).map D.withDummy.setValues := by
    unfold finish
    simp only [hM, Option.bind_some]
  constructor
  · intro D' hD'
    rw [hfin, Option.map_eq_some_iff] at hD'
    obtain ⟨σ', hσ', rfl⟩ := hD'
    obtain ⟨t1, t2, t3, t4, t5, t6⟩ := s1 σ' hσ'
    have hheap : ∀ (v : ℕ) (x : Variable F W), D.heap[v]? = some x →
        (D.withDummy.setValues σ').heap[v]? = some { x with value := σ'.value v } := by
      intro v x hx
      show (D.withDummy.heap.mapIdx _)[v]? = _
      rw [List.getElem?_mapIdx, withDummy_get (List.getElem?_eq_some_iff.mp hx).1, hx]
      rfl
    have hstate : (D.withDummy.setValues σ').state = σ' := by
      have hget : ∀ v : ℕ, (D.withDummy.setValues σ').heap[v]? =
          D.withDummy.heap[v]?.map (fun x => { x with value := σ'.value v }) := by
        intro v
        show (D.withDummy.heap.mapIdx _)[v]? = _
        rw [List.getElem?_mapIdx]
      have e1 : (D.withDummy.setValues σ').state.value = σ'.value := by
        funext v
        rcases hv : D.withDummy.heap[v]? with _ | x
        · rw [(state_none (D := D.withDummy.setValues σ') (v := v) ?_).1, t5 v ?_, (state_none ?_).1]
          · exact List.getElem?_eq_none_iff.mp hv
          · rintro (rfl | ⟨hm, -⟩)
            · have := List.getElem?_eq_none_iff.mp hv; omega
            · obtain ⟨d, m, hd⟩ := (mem_root (show Vars.Inv D.withDummy.store from h.store) _).mp hm
              have := h.bound d m _ hd
              have := List.getElem?_eq_none_iff.mp hv; omega
          · rw [← List.getElem?_eq_none_iff, hget, hv]; rfl
        · rw [(state_some (D := D.withDummy.setValues σ') (x := { x with value := σ'.value v }) (by rw [hget, hv]; rfl)).1]
      have e2 : (D.withDummy.setValues σ').state.fixed = σ'.fixed := by
        rw [t2]
        funext v
        simp only [state, hget]
        rcases hv : D.withDummy.heap[v]? with _ | x <;> rfl
      have e3 : (D.withDummy.setValues σ').state.id = σ'.id := by
        rw [t1]
        funext v
        simp only [state, hget]
        rcases hv : D.withDummy.heap[v]? with _ | x <;> rfl
      have e4 : (D.withDummy.setValues σ').state.ext = σ'.ext := by rw [t3]; rfl
      have e5 : (D.withDummy.setValues σ').state.world = σ'.world := by rw [t4]; rfl
      generalize (D.withDummy.setValues σ').state = τ at e1 e2 e3 e4 e5
      cases τ; cases σ'
      simp only at e1 e2 e3 e4 e5
      simp only [e1, e2, e3, e4, e5]
    refine ⟨rfl, rfl, rfl, ?_, ?_, ?_⟩
    · intro x hx
      show Function.update D.ext D.nextExt (.int 0) x = D.ext x
      rw [Function.update_of_ne (by omega)]
    · intro v x hx
      refine ⟨σ'.value v, hheap v x hx, ?_⟩
      have hlt := (List.getElem?_eq_some_iff.mp hx).1
      by_cases hn : Node D.withDummy.state D.heap.length (blockTree D.withDummy.store D.withDummy.store.blocks.length 0) v
      · right
        exact (node_iff h v (by omega)).mp hn
      · left
        rw [t5 v hn, (state_some (by rw [withDummy_get hlt]; exact hx)).1]
    · intro v e hd
      have hlt : v < D.heap.length := by
        obtain ⟨⟨d, m, hd⟩, -⟩ := hd
        exact h.bound d m v hd
      have hn := (node_iff h v (by omega)).mpr ⟨e, hd⟩
      rw [hstate]
      have hval : D.withDummy.state.value v = D.state.value v := by
        simp only [state, withDummy_get hlt]
      rcases t6 v hn with h' | ⟨h', h''⟩
      · left
        unfold Current at h'
        rw [expr_of h hd] at h'
        exact h'
      · right
        rw [expr_of h hd] at h'
        exact ⟨h', by rw [h'', hval]⟩
  · rw [hfin, Option.map_eq_none_iff, s2, cycle_iff h]

end Schnek.Lemma.Deck
