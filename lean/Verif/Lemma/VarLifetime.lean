import Verif.Model.VarLifetime
import Verif.Lemma.SessionDeck

/-!
Reference counting of the variables of a setup file.
-/

namespace Schnek.Lemma.VarLifetime

open Schnek.Deck Schnek.Deck.VarLifetime Schnek.Spec Schnek.Lemma.Deck Schnek.Lemma.Blocks Relation

variable {F W : Type}

mutual

theorem holds_eq : (e : Expr F W) → e.holds = mentioned e
  | .value _ => rfl
  | .ref _ _ => rfl
  | .ext _ _ => rfl
  | .unary _ e => holds_eq e
  | .binary _ es => holdsTerms_eq es
  | .cast _ e => holds_eq e
  | .call _ args => holdsArgs_eq args

theorem holdsTerms_eq : (es : Terms F W) → es.holds = mentionedTerms es
  | .nil => rfl
  | .cons _ e es => by simp only [Terms.holds, mentionedTerms, holds_eq e, holdsTerms_eq es]

theorem holdsArgs_eq : (es : Args F W) → es.holds = mentionedArgs es
  | .nil => rfl
  | .cons e es => by simp only [Args.holds, mentionedArgs, holds_eq e, holdsArgs_eq es]

end

/-- `x` has a pointer to `y` -/
abbrev Points (D : DeckState F W) (x y : Node) : Prop := y ∈ members D x

theorem points_nodes {D : DeckState F W} {x y : Node} (h : Points D x y) : x ∈ nodes D := by
  unfold nodes
  cases x with
  | block b =>
    unfold Points members at h
    cases hb : D.store.blocks[b]? with
    | none => simp [hb] at h
    | some B => have := (List.getElem?_eq_some_iff.mp hb).1; simp [this]
  | var v =>
    unfold Points members at h
    cases hb : D.heap[v]? with
    | none => simp [hb] at h
    | some B => have := (List.getElem?_eq_some_iff.mp hb).1; simp [this]

/-- the pointers of existing objects are to existing objects -/
def Closed (D : DeckState F W) : Prop := ∀ x y, Points D x y → y ∈ nodes D

theorem closed_of {D : DeckState F W} (h : DInv D) {A} (hr : RInv D A) : Closed D := by
  intro x y hxy
  have hblock : ∀ c, c < D.store.blocks.length → Node.block c ∈ nodes D := by intro c hc; simp [nodes, hc]
  have hvar : ∀ c, c < D.heap.length → Node.var c ∈ nodes D := by intro c hc; simp [nodes, hc]
  cases x with
  | block b =>
    unfold Points members at hxy
    cases hb : D.store.blocks[b]? with
    | none => simp [hb] at hxy
    | some B =>
      have hlt := (List.getElem?_eq_some_iff.mp hb).1
      have hchild : ∀ c, DirectlyIn D.store b c → Node.block c ∈ nodes D := by
        rintro c ⟨C, hC, -⟩
        exact hblock c (List.getElem?_eq_some_iff.mp hC).1
      simp only [hb] at hxy
      simp only [List.mem_append, List.mem_map, Option.mem_toList, Option.mem_def] at hxy
      rcases hxy with ((⟨p, hp, rfl⟩ | ⟨c, hc, rfl⟩) | ⟨c, ⟨⟨n, c'⟩, hc, rfl⟩, rfl⟩) | ⟨v, ⟨⟨n, v'⟩, hv, rfl⟩, rfl⟩
      · have := h.store.parent b p ⟨B, hb, hp⟩
        exact hblock p (by omega)
      · exact hchild c ((mem_children h.store hb c).mp hc)
      · refine hchild c' ((mem_children h.store hb c').mp ?_)
        rw [h.store.children b B hb]
        exact List.mem_map.mpr ⟨_, hc, rfl⟩
      · exact hvar v' (h.bound b n v' ((Vars.varOf_iff h.store b n v').mp (by
          unfold Storage.varOf
          rw [hb, Option.bind_some]
          exact (Vars.find_iff _ (h.store.vars b B hb) n v').mpr hv)))
  | var v =>
    unfold Points members at hxy
    cases hb : D.heap[v]? with
    | none => simp [hb] at hxy
    | some X =>
      simp only [hb] at hxy
      cases he : X.expression with
      | none => simp [he] at hxy
      | some e =>
        rw [he] at hxy
        simp only [List.mem_map] at hxy
        obtain ⟨u, hu, rfl⟩ := hxy
        rw [holds_eq] at hu
        obtain ⟨c, n, hd⟩ := hr.mention v X e hb he u hu
        exact hvar u (h.bound c n u hd)

/-- invariant of the memory -/
structure Inv (D : DeckState F W) (m : Mem F W) : Prop where
  deck : m.deck = D
  exist : ∀ x, m.alive x = true → x ∈ nodes D
  handle : ∀ x ∈ m.handles, m.alive x = true
  point : ∀ x y, m.alive x = true → Points D x y → m.alive y = true

theorem mem_pointers {D : DeckState F W} {m : Mem F W} (hI : Inv D m) {y : Node} :
    y ∈ m.pointers ↔ y ∈ m.handles ∨ ∃ x, m.alive x = true ∧ Points D x y := by
  unfold Mem.pointers
  rw [hI.deck]
  simp only [List.mem_append, List.mem_flatMap, List.mem_filter]
  constructor
  · rintro (h | ⟨x, ⟨-, h1⟩, h2⟩)
    · exact .inl h
    · exact .inr ⟨x, h1, h2⟩
  · rintro (h | ⟨x, h1, h2⟩)
    · exact .inl h
    · exact .inr ⟨x, ⟨hI.exist x h1, h1⟩, h2⟩

theorem inv_start {D : DeckState F W} (hc : Closed D) {hs : List Node} (hh : ∀ x ∈ hs, x ∈ nodes D) : Inv D (Mem.start D hs) := by
  refine ⟨rfl, ?_, ?_, ?_⟩
  · intro x hx; simpa [Mem.start] using hx
  · intro x hx; simpa [Mem.start] using hh x hx
  · intro x y _ hxy; simpa [Mem.start] using hc x y hxy

theorem inv_step {D : DeckState F W} {m m' : Mem F W} (hI : Inv D m) {op : VarLifetime.Op} (hs : m.step op = some m') : Inv D m' := by
  cases op with
  | hold x =>
    rw [Mem.step] at hs
    split at hs
    · rename_i h
      cases hs
      refine ⟨hI.deck, hI.exist, ?_, hI.point⟩
      intro y hy
      rcases List.mem_cons.mp hy with rfl | hy
      · rcases h with h | h
        · exact hI.handle _ h
        · obtain ⟨z, hz, hzy⟩ := List.mem_flatMap.mp h
          rw [hI.deck] at hzy
          exact hI.point z _ (hI.handle z hz) hzy
      · exact hI.handle y hy
    · cases hs
  | release x =>
    rw [Mem.step] at hs
    split at hs
    · cases hs
      exact ⟨hI.deck, hI.exist, fun y hy => hI.handle y (List.mem_of_mem_erase hy), hI.point⟩
    · cases hs
  | destroy x =>
    rw [Mem.step] at hs
    split at hs
    · rename_i h
      cases hs
      have hx : x ∉ m.pointers := List.count_eq_zero.mp h.2
      rw [mem_pointers hI] at hx
      push Not at hx
      have key : ∀ y, Function.update m.alive x false y = true ↔ y ≠ x ∧ m.alive y = true := by
        intro y
        by_cases hy : y = x
        · subst hy; simp
        · simp [hy]
      refine ⟨hI.deck, ?_, ?_, ?_⟩
      · intro y hy; exact hI.exist y ((key y).mp hy).2
      · intro y hy
        refine (key y).mpr ⟨?_, hI.handle y hy⟩
        rintro rfl; exact hx.1 hy
      · intro y z hy hyz
        have hy' := ((key y).mp hy).2
        refine (key z).mpr ⟨?_, hI.point y z hy' hyz⟩
        rintro rfl; exact hx.2 y hy' hyz
    · cases hs

theorem run_cons (m : Mem F W) (op : VarLifetime.Op) (ops : List VarLifetime.Op) :
    m.run (op :: ops) = (m.step op).bind fun m' => m'.run ops := by
  simp only [Mem.run, List.foldlM_cons]; rfl

theorem inv_run {D : DeckState F W} : ∀ (ops : List VarLifetime.Op) {m m' : Mem F W}, Inv D m → m.run ops = some m' → Inv D m'
  | [], m, m', h, hr => by cases hr; exact h
  | op :: ops, m, m', h, hr => by
    rw [run_cons, Option.bind_eq_some_iff] at hr
    obtain ⟨m1, h1, h2⟩ := hr
    exact inv_run ops (inv_step h h1) h2

/-- a set of objects each of which is pointed to by one of them stays for ever -/
theorem keep_run {D : DeckState F W} {K : Node → Prop} (hK : ∀ x, K x → ∃ y, K y ∧ Points D y x) : ∀ (ops : List VarLifetime.Op)
    {m m' : Mem F W}, Inv D m → (∀ x, K x → m.alive x = true) → m.run ops = some m' → ∀ x, K x → m'.alive x = true
  | [], m, m', _, ha, hr => by cases hr; exact ha
  | op :: ops, m, m', hI, ha, hr => by
    rw [run_cons, Option.bind_eq_some_iff] at hr
    obtain ⟨m1, h1, h2⟩ := hr
    refine keep_run hK ops (inv_step hI h1) ?_ h2
    intro x hx
    cases op with
    | hold y =>
      rw [Mem.step] at h1
      split at h1 <;> cases h1
      exact ha x hx
    | release y =>
      rw [Mem.step] at h1
      split at h1 <;> cases h1
      exact ha x hx
    | destroy y =>
      rw [Mem.step] at h1
      split at h1
      · rename_i h
        cases h1
        have hy : y ∉ m.pointers := List.count_eq_zero.mp h.2
        have hxy : x ≠ y := by
          rintro rfl
          obtain ⟨z, hz, hzx⟩ := hK x hx
          exact hy ((mem_pointers hI).mpr (.inr ⟨z, ha z hz, hzx⟩))
        simp only [Function.update_of_ne hxy]
        exact ha x hx
      · cases h1

/-- in a finite set in which each object is pointed to by another one there is a cycle before each object -/
theorem cycle_before {D : DeckState F W} {A : Node → Prop} (hfin : ∀ x, A x → x ∈ nodes D) (hA : ∀ x, A x → ∃ y, A y ∧ Points D y x)
    {x : Node} (hx : A x) : ∃ y, A y ∧ TransGen (Points D) y y ∧ ReflTransGen (Points D) y x := by
  classical
  choose! f hf using hA
  have hit : ∀ k, A (f^[k] x) := by
    intro k
    induction k with
    | zero => exact hx
    | succ k ih => rw [Function.iterate_succ_apply']; exact (hf _ ih).1
  have hstep : ∀ k d, ReflTransGen (Points D) (f^[k + d] x) (f^[k] x) := by
    intro k d
    induction d with
    | zero => exact .refl
    | succ d ih =>
      rw [← Nat.add_assoc, Function.iterate_succ_apply']
      exact ReflTransGen.head (hf _ (hit _)).2 ih
  have hinf : ¬ Function.Injective (fun k : ℕ => (⟨f^[k] x, List.mem_toFinset.mpr (hfin _ (hit k))⟩ : {y // y ∈ (nodes D).toFinset})) :=
    not_injective_infinite_finite _
  unfold Function.Injective at hinf
  push Not at hinf
  obtain ⟨i, j, hij, hne⟩ := hinf
  replace hij : f^[i] x = f^[j] x := congrArg Subtype.val hij
  wlog hlt : i < j generalizing i j
  · exact this j i (Ne.symm hne) hij.symm (lt_of_le_of_ne (not_lt.mp hlt) (Ne.symm hne))
  refine ⟨f^[j] x, hit j, ?_, ?_⟩
  · obtain ⟨d, rfl⟩ : ∃ d, j = i + d + 1 := ⟨j - i - 1, by omega⟩
    have h1 : Points D (f^[i + d + 1] x) (f^[i + d] x) := by
      rw [Function.iterate_succ_apply']; exact (hf _ (hit _)).2
    have h2 := hstep i d
    rw [hij] at h2
    exact TransGen.head' h1 h2
  · simpa using hstep 0 j

end Schnek.Lemma.VarLifetime
