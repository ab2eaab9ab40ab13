import Verif.Lemma.Search
import Verif.Lemma.Known
import Verif.Spec.Dependencies
import Mathlib.Data.Finset.Union

namespace Schnek.Lemma.Dep

open Schnek.Deck Schnek.Deck.DepMap Schnek.Spec Relation

variable {F W : Type}

/-! ## the map -/

section

variable (σ : State F W) (expr : Var → Expr F W) (dummy : Var)

mutual

theorem addTree_eq : (t : Tree) → ∀ D, addTree σ expr dummy t D = (allVars t).foldlM (addVar σ expr dummy) D
  | .node vars children => fun D => by
      rw [addTree, allVars, List.foldlM_append]
      simp only [Option.bind_eq_bind]
      congr 1
      funext D'
      exact addTrees_eq children D'

theorem addTrees_eq : (ts : List Tree) → ∀ D, addTrees σ expr dummy ts D = (allVarsList ts).foldlM (addVar σ expr dummy) D
  | [] => fun D => by simp [addTrees, allVarsList]
  | t :: ts => fun D => by
      rw [addTrees, allVarsList, List.foldlM_append, addTree_eq t D]
      simp only [Option.bind_eq_bind]
      congr 1
      funext D'
      exact addTrees_eq ts D'

end

/-- the map contains the variables `S` -/
structure Holds (D : DepMap) (S : Finset Var) : Prop where
  keys : ∀ k, k ∈ D.keys ↔ ∃ v ∈ S, σ.id v = k
  var : ∀ v ∈ S, D.var (σ.id v) = v
  dep : ∀ v ∈ S, v ≠ dummy → D.dependsOn (σ.id v) = entry σ expr dummy v
  depDummy : D.dependsOn (σ.id dummy) = ∅
  depNone : ∀ k, k ∉ D.keys → D.dependsOn k = ∅
  dummy : dummy ∈ S

theorem addVars_holds : ∀ (L : List Var) (D : DepMap) (S : Finset Var), Holds σ expr dummy D S → (∀ k, D.modifies k = ∅) →
    ∀ D', L.foldlM (addVar σ expr dummy) D = some D' →
    (∃ S', Holds σ expr dummy D' S' ∧ ∀ v, v ∈ S' ↔ v ∈ S ∨ (v ∈ L ∧ σ.fixed v = false)) ∧ (∀ k, D'.modifies k = ∅) ∧
      (∀ v ∈ S, σ.fixed v = false → v ∉ L) := by
  intro L
  induction L with
  | nil =>
      intro D S h hm D' hD
      simp only [List.foldlM_nil, Option.pure_def, Option.some.injEq] at hD
      subst hD
      exact ⟨⟨S, h, by simp⟩, hm, by simp⟩
  | cons v L ih =>
      intro D S h hm D' hD
      simp only [List.foldlM_cons, Option.bind_eq_bind, Option.bind_eq_some_iff] at hD
      obtain ⟨D1, h1, hD⟩ := hD
      unfold addVar at h1
      split_ifs at h1 with hf hk
      · simp only [Option.some.injEq] at h1
        subst h1
        obtain ⟨⟨S', hS', hmem⟩, hm', hnot⟩ := ih D S h hm D' hD
        refine ⟨⟨S', hS', ?_⟩, hm', ?_⟩
        · intro u
          rw [hmem u]
          constructor
          · rintro (h | h)
            · exact .inl h
            · exact .inr ⟨List.mem_cons_of_mem _ h.1, h.2⟩
          · rintro (h | ⟨h, hu⟩)
            · exact .inl h
            · rcases List.mem_cons.mp h with rfl | h
              · rw [hf] at hu; simp at hu
              · exact .inr ⟨h, hu⟩
        · intro u hu huf huL
          rcases List.mem_cons.mp huL with rfl | h
          · rw [hf] at huf; simp at huf
          · exact hnot u hu huf h
      · simp only [Option.some.injEq] at h1
        have hvS : ∀ u ∈ S, σ.id u ≠ σ.id v := by
          intro u hu heq
          exact hk ((h.keys _).mpr ⟨u, hu, heq⟩)
        have hvd : v ≠ dummy := fun e => hvS dummy h.dummy (by rw [e])
        have hH : Holds σ expr dummy D1 (insert v S) := by
          subst h1
          refine ⟨?_, ?_, ?_, ?_, ?_, ?_⟩
          · intro k
            simp only [Finset.mem_insert]
            rw [h.keys]
            constructor
            · rintro (rfl | ⟨u, hu, rfl⟩)
              · exact ⟨v, .inl rfl, rfl⟩
              · exact ⟨u, .inr hu, rfl⟩
            · rintro ⟨u, rfl | hu, rfl⟩
              · exact .inl rfl
              · exact .inr ⟨u, hu, rfl⟩
          · intro u hu
            rcases Finset.mem_insert.mp hu with rfl | hu
            · simp
            · simp [Function.update_of_ne (hvS u hu), h.var u hu]
          · intro u hu hud
            rcases Finset.mem_insert.mp hu with rfl | hu
            · simp
            · simp [Function.update_of_ne (hvS u hu), h.dep u hu hud]
          · simp [Function.update_of_ne (hvS dummy h.dummy), h.depDummy]
          · intro k hk'
            simp only [Finset.mem_insert, not_or] at hk'
            simp [Function.update_of_ne hk'.1, h.depNone k hk'.2]
          · exact Finset.mem_insert_of_mem h.dummy
        have hm1 : ∀ k, D1.modifies k = ∅ := by
          subst h1
          intro k
          by_cases hkv : k = σ.id v
          · subst hkv; simp
          · simp [Function.update_of_ne hkv, hm k]
        obtain ⟨⟨S', hS', hmem⟩, hm', hnot⟩ := ih D1 (insert v S) hH hm1 D' hD
        refine ⟨⟨S', hS', ?_⟩, hm', ?_⟩
        · intro u
          rw [hmem u]
          simp only [Finset.mem_insert, List.mem_cons]
          constructor
          · rintro ((rfl | h) | h)
            · exact .inr ⟨.inl rfl, by simpa using hf⟩
            · exact .inl h
            · exact .inr ⟨.inr h.1, h.2⟩
          · rintro (h | ⟨rfl | h, hu⟩)
            · exact .inl (.inr h)
            · exact .inl (.inl rfl)
            · exact .inr ⟨h, hu⟩
        · intro u hu huf huL
          rcases List.mem_cons.mp huL with rfl | h
          · exact hvS u hu rfl
          · exact hnot u (Finset.mem_insert_of_mem hu) huf h

end

/-! ## the reverse edges -/

theorem addModifies_fold (k : ℤ) : ∀ (L : List ℤ) (D : DepMap), let D' := L.foldl (addModifies k) D
    D'.keys = D.keys ∧ D'.var = D.var ∧ D'.dependsOn = D.dependsOn ∧
      ∀ i j, j ∈ D'.modifies i ↔ j ∈ D.modifies i ∨ (j = k ∧ i ∈ L ∧ i ∈ D.keys) := by
  intro L
  induction L with
  | nil => intro D; simp
  | cons x L ih =>
      intro D
      simp only [List.foldl_cons]
      obtain ⟨h1, h2, h3, h4⟩ := ih (addModifies k D x)
      have e1 : (addModifies k D x).keys = D.keys := by unfold addModifies; split_ifs <;> rfl
      have e2 : (addModifies k D x).var = D.var := by unfold addModifies; split_ifs <;> rfl
      have e3 : (addModifies k D x).dependsOn = D.dependsOn := by unfold addModifies; split_ifs <;> rfl
      refine ⟨h1.trans e1, h2.trans e2, h3.trans e3, ?_⟩
      intro i j
      rw [h4, e1]
      have e4 : j ∈ (addModifies k D x).modifies i ↔ j ∈ D.modifies i ∨ (j = k ∧ i = x ∧ i ∈ D.keys) := by
        unfold addModifies
        by_cases hx : x ∈ D.keys
        · rw [if_pos hx]
          by_cases hi : i = x
          · subst hi
            simp [hx]; tauto
          · simp [Function.update_of_ne hi, hi]
        · rw [if_neg hx]
          constructor
          · exact .inl
          · rintro (h | ⟨_, rfl, h⟩)
            · exact h
            · exact (hx h).elim
      rw [e4]
      simp only [List.mem_cons]
      tauto

theorem setModifies_spec (D : DepMap) :
    D.setModifies.keys = D.keys ∧ D.setModifies.var = D.var ∧ D.setModifies.dependsOn = D.dependsOn ∧
      ∀ i j, j ∈ D.setModifies.modifies i ↔ j ∈ D.modifies i ∨ (j ∈ D.keys ∧ i ∈ D.dependsOn j ∧ i ∈ D.keys) := by
  have key : ∀ (L : List ℤ) (D : DepMap),
      let D' := L.foldl (fun D k => (asc (D.dependsOn k)).foldl (addModifies k) D) D
      D'.keys = D.keys ∧ D'.var = D.var ∧ D'.dependsOn = D.dependsOn ∧
        ∀ i j, j ∈ D'.modifies i ↔ j ∈ D.modifies i ∨ (j ∈ L ∧ i ∈ D.dependsOn j ∧ i ∈ D.keys) := by
    intro L
    induction L with
    | nil => intro D; simp
    | cons k L ih =>
        intro D
        simp only [List.foldl_cons]
        obtain ⟨e1, e2, e3, e4⟩ := addModifies_fold k (asc (D.dependsOn k)) D
        obtain ⟨h1, h2, h3, h4⟩ := ih ((asc (D.dependsOn k)).foldl (addModifies k) D)
        refine ⟨h1.trans e1, h2.trans e2, h3.trans e3, ?_⟩
        intro i j
        rw [h4, e4, e1, e3]
        simp only [mem_asc, List.mem_cons]
        constructor
        · rintro ((h | ⟨rfl, h⟩) | h)
          · exact .inl h
          · exact .inr ⟨.inl rfl, h⟩
          · exact .inr ⟨.inr h.1, h.2⟩
        · rintro (h | ⟨rfl | h, h'⟩)
          · exact .inl (.inl h)
          · exact .inl (.inr ⟨rfl, h'⟩)
          · exact .inr ⟨h, h'⟩
  have := key (asc D.keys) D
  simpa [setModifies] using this

/-! ## facts about a created map -/

structure Facts (D : DepMap) : Prop where
  modifies : ∀ i j, j ∈ D.modifies i ↔ j ∈ D.keys ∧ i ∈ D.dependsOn j ∧ i ∈ D.keys
  depKeys : ∀ i j, i ∈ D.dependsOn j → j ∈ D.keys
  nonneg : ∀ i j, i ∈ D.dependsOn j → 0 ≤ i

/-- direct dependency, by id -/
def EdgeId (D : DepMap) (i j : ℤ) : Prop := i ∈ D.keys ∧ j ∈ D.keys ∧ i ∈ D.dependsOn j

structure Created (σ : State F W) (expr : Var → Expr F W) (dummy : Var) (t : Tree) (D : DepMap) : Prop where
  facts : Facts D
  keys : ∀ k, k ∈ D.keys ↔ ∃ v, Node σ dummy t v ∧ σ.id v = k
  var : ∀ v, Node σ dummy t v → D.var (σ.id v) = v
  edge : ∀ u v, Node σ dummy t u → Node σ dummy t v → (σ.id u ∈ D.dependsOn (σ.id v) ↔ Edge σ expr dummy t u v)
  dummyNot : ¬ NonConstant σ t dummy

theorem entry_mem (σ : State F W) (expr : Var → Expr F W) (dummy v : Var) (hid : GoodIds σ) (u : Var) :
    σ.id u ∈ entry σ expr dummy v ↔ Uses σ expr dummy u v := by
  unfold entry Uses
  have hne : σ.id u ≠ -1 := by have := hid.nonneg u; omega
  simp only []
  split_ifs with h
  · rw [List.mem_toFinset] at h
    simp only [Finset.mem_insert, Finset.mem_erase, List.mem_toFinset]
    constructor
    · rintro (h' | h')
      · exact .inr ⟨hid.inj h', h⟩
      · exact .inl h'.2
    · rintro (h' | ⟨rfl, _⟩)
      · exact .inr ⟨hne, h'⟩
      · exact .inl rfl
  · rw [List.mem_toFinset] at h
    simp only [List.mem_toFinset]
    tauto

theorem entry_nonneg (σ : State F W) (expr : Var → Expr F W) (dummy v : Var) (hid : GoodIds σ) (i : ℤ)
    (h : i ∈ entry σ expr dummy v) : 0 ≤ i := by
  unfold entry at h
  simp only [] at h
  have key : i ∈ (expr v).deps σ → i ≠ -1 → 0 ≤ i := by
    intro h1 h2
    rcases Lemma.Deck.expr_deps_mem σ (expr v) i h1 with h3 | ⟨u, rfl⟩
    · exact (h2 h3).elim
    · exact hid.nonneg u
  split_ifs at h with hm
  · rcases Finset.mem_insert.mp h with rfl | h
    · exact hid.nonneg dummy
    · rw [Finset.mem_erase, List.mem_toFinset] at h
      exact key h.2 h.1
  · rw [List.mem_toFinset] at h hm
    exact key h (fun e => hm (e ▸ h))

theorem created (σ : State F W) (expr : Var → Expr F W) (dummy : Var) (t : Tree) (D : DepMap) (hid : GoodIds σ)
    (h : DepMap.create σ expr dummy t = some D) : Created σ expr dummy t D := by
  simp only [DepMap.create, constructMap, Option.map_eq_some_iff] at h
  obtain ⟨D0, h0, rfl⟩ := h
  rw [addTree_eq] at h0
  have hinit : Holds σ expr dummy (initial σ dummy) {dummy} := by
    refine ⟨?_, ?_, ?_, rfl, fun _ _ => rfl, by simp⟩
    · intro k; simp [initial, eq_comm]
    · intro v hv; simp only [Finset.mem_singleton] at hv; subst hv; rfl
    · intro v hv hne; simp only [Finset.mem_singleton] at hv; exact (hne hv).elim
  obtain ⟨⟨S, hS, hmem⟩, hm0, hnot⟩ := addVars_holds σ expr dummy _ _ {dummy} hinit (fun _ => rfl) D0 h0
  obtain ⟨e1, e2, e3, e4⟩ := setModifies_spec D0
  have hnode : ∀ v, v ∈ S ↔ Node σ dummy t v := by
    intro v; rw [hmem v]; simp [Node, NonConstant]
  have hdn : ¬ NonConstant σ t dummy := fun hc => hnot dummy (by simp) hc.2 hc.1
  have hmod : ∀ i j, j ∈ D0.setModifies.modifies i ↔
      j ∈ D0.setModifies.keys ∧ i ∈ D0.setModifies.dependsOn j ∧ i ∈ D0.setModifies.keys := by
    intro i j
    rw [e4, e1, e3, hm0]; simp
  refine ⟨⟨hmod, ?_, ?_⟩, ?_, ?_, ?_, hdn⟩
  · intro i j hij
    rw [e3] at hij
    rw [e1]
    by_contra hk
    rw [hS.depNone j hk] at hij
    simp at hij
  · intro i j hij
    rw [e3] at hij
    by_cases hk : j ∈ D0.keys
    · obtain ⟨v, hv, rfl⟩ := (hS.keys j).mp hk
      by_cases hvd : v = dummy
      · subst hvd; rw [hS.depDummy] at hij; simp at hij
      · rw [hS.dep v hv hvd] at hij
        exact entry_nonneg σ expr dummy v hid i hij
    · rw [hS.depNone j hk] at hij; simp at hij
  · intro k
    rw [e1, hS.keys]
    simp only [hnode]
  · intro v hv
    rw [e2]
    exact hS.var v ((hnode v).mpr hv)
  · intro u v hu hv
    rw [e3]
    by_cases hvd : v = dummy
    · subst hvd
      rw [hS.depDummy]
      simp only [Finset.notMem_empty, false_iff]
      exact fun he => hdn he.2.1
    · rw [hS.dep v ((hnode v).mpr hv) hvd, entry_mem σ expr dummy v hid u]
      constructor
      · intro h
        exact ⟨hu, hv.resolve_left hvd, h⟩
      · exact fun h => h.2.2

/-! ## the variables to update, by id -/

theorem updateList_id (D : DepMap) (hD : Facts D) (I P : Finset ℤ) (hI : I ⊆ D.keys) (hP : P ⊆ D.keys) :
    ∃ S : Finset ℤ, (∃ N, ∀ n, N ≤ n → D.updateList I P n = D.updateOrder S ∧
        ∃ R, D.predecessors I P n = some R ∧ D.followers I R n = some S) ∧
      (∀ x, x ∈ S ↔ (∃ i ∈ I, ReflTransGen (EdgeId D) i x) ∧ (∃ d ∈ P, ReflTransGen (EdgeId D) x d)) := by
  -- predecessors
  set next : ℤ → List ℤ := fun id => (asc (D.dependsOn id)).flatMap fun j => if j < 0 then (asc I) else [j] with hnext
  have hnextmem : ∀ a b, b ∈ next a ↔ b ∈ D.dependsOn a := by
    intro a b
    simp only [hnext, List.mem_flatMap, mem_asc]
    constructor
    · rintro ⟨j, hj, hb⟩
      rw [if_neg (by have := hD.nonneg j a hj; omega)] at hb
      simp only [List.mem_singleton] at hb
      rw [hb]; exact hj
    · intro hb
      exact ⟨b, hb, by rw [if_neg (by have := hD.nonneg b a hb; omega)]; simp⟩
  let U : Finset ℤ := P ∪ D.keys.biUnion D.dependsOn
  have hUcl : ∀ x ∈ U, ∀ y ∈ next x, y ∈ U := by
    intro x _ y hy
    have hy' := (hnextmem x y).mp hy
    exact Finset.mem_union_right _ (Finset.mem_biUnion.mpr ⟨x, hD.depKeys y x hy', hy'⟩)
  let N1 := U.card - P.card + (asc P).length + 1
  have hpred : ∀ n, N1 ≤ n → ∃ R, D.predecessors I P n = some R := by
    intro n hn
    exact search_total next U hUcl n (asc P) P (Finset.subset_union_left) (fun x hx =>
      Finset.mem_union_left _ ((mem_asc _ _).mp hx)) (by omega)
  obtain ⟨R, hR⟩ := hpred N1 le_rfl
  have hRspec : ∀ n R, D.predecessors I P n = some R → ∀ x, x ∈ R ↔ ∃ d ∈ P, ReflTransGen (fun a b => b ∈ next a) d x :=
    fun n R h x => search_spec next n (asc P) P R (fun x => mem_asc _ x) h x
  have hRuniq : ∀ n, N1 ≤ n → D.predecessors I P n = some R := by
    intro n hn
    obtain ⟨R', hR'⟩ := hpred n hn
    rw [hR']
    congr 1
    ext x
    rw [hRspec n R' hR', hRspec N1 R hR]
  -- followers
  set nextF : ℤ → List ℤ := fun id => (asc (D.modifies id)).filter (· ∈ R) with hnextF
  have hnextFmem : ∀ a b, b ∈ nextF a ↔ b ∈ D.modifies a ∧ b ∈ R := by
    intro a b; simp [hnextF]
  let N2 := R.card - (I.filter (· ∈ R)).card + ((asc I).filter (· ∈ R)).length + 1
  have hfoll : ∀ n, N2 ≤ n → ∃ S, D.followers I R n = some S := by
    intro n hn
    refine search_total nextF R (fun x _ y hy => ((hnextFmem x y).mp hy).2) n _ _ ?_ ?_ (by omega)
    · intro x hx; exact (Finset.mem_filter.mp hx).2
    · intro x hx; simpa using (List.mem_filter.mp hx).2
  obtain ⟨S, hS⟩ := hfoll N2 le_rfl
  have hSspec : ∀ n S, D.followers I R n = some S →
      ∀ x, x ∈ S ↔ ∃ i ∈ I.filter (· ∈ R), ReflTransGen (fun a b => b ∈ nextF a) i x :=
    fun n S h x => search_spec nextF n _ _ S (fun x => by simp) h x
  have hSuniq : ∀ n, N2 ≤ n → D.followers I R n = some S := by
    intro n hn
    obtain ⟨S', hS'⟩ := hfoll n hn
    rw [hS']
    congr 1
    ext x
    rw [hSspec n S' hS', hSspec N2 S hS]
  refine ⟨S, ⟨max N1 N2, ?_⟩, ?_⟩
  · intro n hn
    refine ⟨?_, R, hRuniq n (by omega), hSuniq n (by omega)⟩
    rw [DepMap.updateList, hRuniq n (by omega), Option.bind_some, hSuniq n (by omega), Option.bind_some]
  · -- characterisation
    have hRedge : ∀ x, x ∈ D.keys → (x ∈ R ↔ ∃ d ∈ P, ReflTransGen (EdgeId D) x d) := by
      intro x hx
      rw [hRspec N1 R hR]
      constructor
      · rintro ⟨d, hd, hdx⟩
        refine ⟨d, hd, ?_⟩
        induction hdx with
        | refl => exact .refl
        | @tail b c hdb hbc ih =>
            have hbc' := (hnextmem b c).mp hbc
            have hb := hD.depKeys c b hbc'
            exact .head ⟨hx, hb, hbc'⟩ (ih hb)
      · rintro ⟨d, hd, hxd⟩
        refine ⟨d, hd, ?_⟩
        clear hx
        induction hxd using ReflTransGen.head_induction_on with
        | refl => exact .refl
        | head hac _ ih => exact .tail ih ((hnextmem _ _).mpr hac.2.2)
    have hkeys : ∀ i x, i ∈ D.keys → ReflTransGen (EdgeId D) i x → x ∈ D.keys := by
      intro i x hi h
      rcases ReflTransGen.cases_tail h with rfl | ⟨y, _, hy⟩
      · exact hi
      · exact hy.2.1
    intro x
    rw [hSspec N2 S hS]
    constructor
    · rintro ⟨i, hi, hix⟩
      obtain ⟨hiI, hiR⟩ := Finset.mem_filter.mp hi
      have h1 : ReflTransGen (EdgeId D) i x ∧ x ∈ R := by
        clear hi
        induction hix with
        | refl => exact ⟨.refl, hiR⟩
        | tail _ hbc ih =>
            obtain ⟨h1, h2⟩ := (hnextFmem _ _).mp hbc
            have h3 := (hD.modifies _ _).mp h1
            exact ⟨.tail ih.1 ⟨h3.2.2, h3.1, h3.2.1⟩, h2⟩
      exact ⟨⟨i, hiI, h1.1⟩, (hRedge x (hkeys i x (hI hiI) h1.1)).mp h1.2⟩
    · rintro ⟨⟨i, hi, hix⟩, ⟨d, hd, hxd⟩⟩
      refine ⟨i, Finset.mem_filter.mpr ⟨hi, (hRedge i (hI hi)).mpr ⟨d, hd, hix.trans hxd⟩⟩, ?_⟩
      induction hix with
      | refl => exact .refl
      | @tail b c _ hbc ih =>
          refine .tail (ih (.head hbc hxd)) ((hnextFmem b c).mpr ⟨(hD.modifies b c).mpr ⟨hbc.2.1, hbc.2.2, hbc.1⟩, ?_⟩)
          exact (hRedge c hbc.2.1).mpr ⟨d, hd, hxd⟩

/-! ## the variables to update -/

section

variable {σ : State F W} {expr : Var → Expr F W} {dummy : Var} {t : Tree} {D : DepMap}

theorem edge_id (hC : Created σ expr dummy t D) (u v : Var) (h : Edge σ expr dummy t u v) :
    EdgeId D (σ.id u) (σ.id v) :=
  ⟨(hC.keys _).mpr ⟨u, h.1, rfl⟩, (hC.keys _).mpr ⟨v, .inr h.2.1, rfl⟩, (hC.edge u v h.1 (.inr h.2.1)).mpr h⟩

theorem rtg_id (hid : GoodIds σ) (hC : Created σ expr dummy t D) (u v : Var) (hu : Node σ dummy t u) :
    ReflTransGen (EdgeId D) (σ.id u) (σ.id v) ↔ ReflTransGen (Edge σ expr dummy t) u v := by
  constructor
  · have key : ∀ k, ReflTransGen (EdgeId D) (σ.id u) k → ∃ w, Node σ dummy t w ∧ σ.id w = k ∧
        ReflTransGen (Edge σ expr dummy t) u w := by
      intro k h
      induction h with
      | refl => exact ⟨u, hu, rfl, .refl⟩
      | tail _ hbc ih =>
          obtain ⟨w, hw, rfl, hr⟩ := ih
          obtain ⟨x, hx, rfl⟩ := (hC.keys _).mp hbc.2.1
          exact ⟨x, hx, rfl, .tail hr ((hC.edge w x hw hx).mp hbc.2.2)⟩
    intro h
    obtain ⟨w, _, hwv, hr⟩ := key _ h
    rw [← hid.inj hwv]; exact hr
  · exact fun h => ReflTransGen.lift σ.id (edge_id hC) _ _ h

theorem tg_id (hid : GoodIds σ) (hC : Created σ expr dummy t D) (u v : Var) (hu : Node σ dummy t u) :
    TransGen (EdgeId D) (σ.id u) (σ.id v) ↔ TransGen (Edge σ expr dummy t) u v := by
  constructor
  · intro h
    obtain ⟨k, h1, h2⟩ := TransGen.head'_iff.mp h
    obtain ⟨w, hw, rfl⟩ := (hC.keys _).mp h1.2.1
    exact TransGen.head'_iff.mpr ⟨w, (hC.edge u w hu hw).mp h1.2.2, (rtg_id hid hC w v hw).mp h2⟩
  · exact fun h => TransGen.lift σ.id (edge_id hC) _ _ h

/-- what `makeUpdateList` returns -/
theorem updateList_var (hid : GoodIds σ) (hC : Created σ expr dummy t D) (indep dep : Finset Var)
    (hI : ∀ i ∈ indep, Node σ dummy t i) (hP : ∀ d ∈ dep, Node σ dummy t d) :
    ∃ N, (∀ n, N ≤ n → ∀ l, D.updateList (indep.image σ.id) (dep.image σ.id) n = some l →
        (l.map D.var).Nodup ∧ (∀ v, v ∈ l.map D.var ↔ Relevant σ expr dummy t indep dep v) ∧
        (∀ l₁ b l₂, l.map D.var = l₁ ++ b :: l₂ → ∀ a, Edge σ expr dummy t a b →
          Relevant σ expr dummy t indep dep a → a ∈ l₁) ∧ (∀ k ∈ l, k ∈ D.keys)) ∧
      (∀ n, N ≤ n → (D.updateList (indep.image σ.id) (dep.image σ.id) n = none ↔
        ∃ v, Relevant σ expr dummy t indep dep v ∧ TransGen (Edge σ expr dummy t) v v) ∧
        ∃ R S, D.predecessors (indep.image σ.id) (dep.image σ.id) n = some R ∧ D.followers (indep.image σ.id) R n = some S) := by
  obtain ⟨S, ⟨N, hN⟩, hS⟩ := updateList_id D hC.facts (indep.image σ.id) (dep.image σ.id)
    (by intro k hk
        obtain ⟨i, hi, rfl⟩ := Finset.mem_image.mp hk
        exact (hC.keys _).mpr ⟨i, hI i hi, rfl⟩)
    (by intro k hk
        obtain ⟨i, hi, rfl⟩ := Finset.mem_image.mp hk
        exact (hC.keys _).mpr ⟨i, hP i hi, rfl⟩)
  have hSk : ∀ x ∈ S, x ∈ D.keys := by
    intro x hx
    obtain ⟨⟨i, hi, hix⟩, _⟩ := (hS x).mp hx
    rcases ReflTransGen.cases_tail hix with rfl | ⟨y, _, hy⟩
    · obtain ⟨i, hi', rfl⟩ := Finset.mem_image.mp hi
      exact (hC.keys _).mpr ⟨i, hI i hi', rfl⟩
    · exact hy.2.1
  have hSrel : ∀ v, Node σ dummy t v → (σ.id v ∈ S ↔ Relevant σ expr dummy t indep dep v) := by
    intro v hv
    rw [hS, Relevant]
    refine and_congr ?_ ?_
    · constructor
      · rintro ⟨k, hk, hkv⟩
        obtain ⟨i, hi, rfl⟩ := Finset.mem_image.mp hk
        exact ⟨i, hi, (rtg_id hid hC i v (hI i hi)).mp hkv⟩
      · rintro ⟨i, hi, hiv⟩
        exact ⟨σ.id i, Finset.mem_image_of_mem _ hi, (rtg_id hid hC i v (hI i hi)).mpr hiv⟩
    · constructor
      · rintro ⟨k, hk, hkv⟩
        obtain ⟨d, hd, rfl⟩ := Finset.mem_image.mp hk
        exact ⟨d, hd, (rtg_id hid hC v d hv).mp hkv⟩
      · rintro ⟨d, hd, hvd⟩
        exact ⟨σ.id d, Finset.mem_image_of_mem _ hd, (rtg_id hid hC v d hv).mpr hvd⟩
  have hrelNode : ∀ v, Relevant σ expr dummy t indep dep v → Node σ dummy t v := by
    rintro v ⟨⟨i, hi, hiv⟩, _⟩
    rcases ReflTransGen.cases_tail hiv with rfl | ⟨y, _, hy⟩
    · exact hI _ hi
    · exact .inr hy.2.1
  have hidvar : ∀ k ∈ D.keys, σ.id (D.var k) = k := by
    intro k hk
    obtain ⟨v, hv, rfl⟩ := (hC.keys k).mp hk
    rw [hC.var v hv]
  obtain ⟨ho1, ho2⟩ := updateOrder_spec D S (fun i hi j hj => by
    rw [hC.facts.modifies]
    exact ⟨fun h => h.2.1, fun h => ⟨hSk j hj, h, hSk i hi⟩⟩)
  have hsome : ∀ l, D.updateOrder S = some l → (l.map D.var).Nodup ∧
      (∀ v, v ∈ l.map D.var ↔ Relevant σ expr dummy t indep dep v) ∧
      (∀ l₁ b l₂, l.map D.var = l₁ ++ b :: l₂ → ∀ a, Edge σ expr dummy t a b →
          Relevant σ expr dummy t indep dep a → a ∈ l₁) ∧ (∀ k ∈ l, k ∈ D.keys) := by
    intro l hl
    obtain ⟨h1, h2, h3⟩ := ho1 l hl
    refine ⟨?_, ?_, ?_, ?_⟩
    · refine List.Nodup.map_on ?_ h1
      intro x hx y hy hxy
      have := congrArg σ.id hxy
      rwa [hidvar x (hSk x ((h2 x).mp hx)), hidvar y (hSk y ((h2 y).mp hy))] at this
    · intro v
      rw [List.mem_map]
      constructor
      · rintro ⟨k, hk, rfl⟩
        have hkS := (h2 k).mp hk
        obtain ⟨v, hv, rfl⟩ := (hC.keys k).mp (hSk k hkS)
        rw [hC.var v hv]
        exact (hSrel v hv).mp hkS
      · intro hv
        have hn := hrelNode v hv
        exact ⟨σ.id v, (h2 _).mpr ((hSrel v hn).mpr hv), hC.var v hn⟩
    · intro l₁ b l₂ heq a hab ha
      obtain ⟨m₁, m', hm, hm1, hm'⟩ := List.map_eq_append_iff.mp heq
      obtain ⟨kb, m₂, rfl, hkb, hm2⟩ := List.map_eq_cons_iff.mp hm'
      have hkS : kb ∈ S := (h2 kb).mp (by rw [hm]; simp)
      obtain ⟨b', hb', hbk⟩ := (hC.keys kb).mp (hSk kb hkS)
      have hbb : b' = b := by rw [← hkb, ← hbk, hC.var b' hb']
      subst hbb
      have haN := hrelNode a ha
      have hdep : σ.id a ∈ D.dependsOn kb := by
        rw [← hbk]; exact (hC.edge a b' haN hb').mpr hab
      have := h3 m₁ kb m₂ hm (σ.id a) hdep ((hSrel a haN).mpr ha)
      rw [← hm1, List.mem_map]
      exact ⟨σ.id a, this, hC.var a haN⟩
    · intro k hk
      exact hSk k ((h2 k).mp hk)
  refine ⟨N, ?_, ?_⟩
  · intro n hn l hl
    rw [(hN n hn).1] at hl
    exact hsome l hl
  · intro n hn
    obtain ⟨hn1, R, hR, hF⟩ := hN n hn
    refine ⟨?_, R, S, hR, hF⟩
    rw [hn1]
    constructor
    · intro hnone
      obtain ⟨T, hT, hTS, hTp⟩ := ho2 hnone
      obtain ⟨a, ha, hc⟩ := cycle_of_pred (EdgeId D) T hT (fun b hb => by
        obtain ⟨a, ha, hab⟩ := hTp b hb
        exact ⟨a, ha, hSk a (hTS ha), hSk b (hTS hb), hab⟩)
      obtain ⟨v, hv, rfl⟩ := (hC.keys a).mp (hSk a (hTS ha))
      exact ⟨v, (hSrel v hv).mp (hTS ha), (tg_id hid hC v v hv).mp hc⟩
    · rintro ⟨v, hv, hcyc⟩
      by_contra hne
      obtain ⟨l, hl⟩ := Option.ne_none_iff_exists'.mp hne
      obtain ⟨h1, h2, h3⟩ := ho1 l hl
      refine topological_acyclic D.dependsOn S l h1 h2 h3 (σ.id v) ?_
      -- every variable on the cycle is relevant
      have hnode := hrelNode v hv
      have key : ∀ w, ReflTransGen (Edge σ expr dummy t) v w → ReflTransGen (Edge σ expr dummy t) w v → σ.id w ∈ S := by
        intro w h1 h2
        have hw : Node σ dummy t w := by
          rcases ReflTransGen.cases_tail h1 with rfl | ⟨y, _, hy⟩
          · exact hnode
          · exact .inr hy.2.1
        refine (hSrel w hw).mpr ?_
        obtain ⟨⟨i, hi, hiv⟩, ⟨d, hd, hvd⟩⟩ := hv
        exact ⟨⟨i, hi, hiv.trans h1⟩, ⟨d, hd, h2.trans hvd⟩⟩
      have walk : ∀ w, TransGen (Edge σ expr dummy t) v w → ReflTransGen (Edge σ expr dummy t) w v →
          TransGen (fun a b => a ∈ S ∧ b ∈ S ∧ a ∈ D.dependsOn b) (σ.id v) (σ.id w) := by
        intro w h
        induction h with
        | @single b hab =>
            intro hbv
            exact .single ⟨key v .refl .refl, key b (.single hab) hbv, (edge_id hC v b hab).2.2⟩
        | @tail b c hab hbc ih =>
            intro hcv
            have hbv : ReflTransGen (Edge σ expr dummy t) b v := .head hbc hcv
            exact .tail (ih hbv) ⟨key b hab.to_reflTransGen hbv, key c (hab.tail hbc).to_reflTransGen hcv,
              (edge_id hC b c hbc).2.2⟩
      exact walk v hcyc .refl

end

end Schnek.Lemma.Dep
