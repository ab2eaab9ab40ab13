import Verif.Lemma.Deck

namespace Schnek.Lemma.Deck

open Schnek.Deck Schnek.Spec Relation DeckState

variable {F W : Type}

/-- a variable holds a value or an expression of its type -/
def Typed (x : Variable F W) : Prop :=
  (x.fixed = true → x.value.ty = x.ty) ∧ (x.fixed = false → ∃ e, x.expression = some e ∧ e.ty = x.ty)

structure DInv (D : DeckState F W) : Prop where
  store : Vars.Inv D.store
  bound : ∀ (b : ℕ) (n : String) (v : ℕ), Declares D.store b n v → v < D.heap.length
  once : ∀ b n b' n' v, Declares D.store b n v → Declares D.store b' n' v → b = b' ∧ n = n'
  typed : ∀ (v : ℕ) (x : Variable F W), D.heap[v]? = some x → Typed x
  nonneg : ∀ (v : ℕ) (x : Variable F W), D.heap[v]? = some x → 0 ≤ x.id
  lt : ∀ (v : ℕ) (x : Variable F W), D.heap[v]? = some x → x.id < D.nextId
  inj : ∀ (v w : ℕ) (x y : Variable F W), D.heap[v]? = some x → D.heap[w]? = some y → x.id = y.id → v = w
  next : 0 ≤ D.nextId

theorem DInv.congr {D D' : DeckState F W} (h : DInv D) (h1 : D'.store = D.store) (h2 : D'.heap = D.heap)
    (h3 : D.nextId ≤ D'.nextId) : DInv D' := by
  obtain ⟨a, b, b', c, d, e, f, g⟩ := h
  refine ⟨by rw [h1]; exact a, by rw [h1, h2]; exact b, by rw [h1]; exact b', by rw [h2]; exact c, by rw [h2]; exact d, ?_,
    by rw [h2]; exact f, by omega⟩
  rw [h2]
  intro v x hx
  have := e v x hx
  omega

theorem get_push {α : Type} {l : List α} {a y : α} {v : ℕ} (h : (l ++ [a])[v]? = some y) :
    l[v]? = some y ∨ (v = l.length ∧ y = a) := by
  rw [List.getElem?_append] at h
  split at h
  · exact Or.inl h
  · right
    rename_i hv
    have hv' : v - l.length = 0 := by
      by_contra hne
      rw [List.getElem?_eq_none (by simp; omega)] at h
      simp at h
    rw [hv'] at h
    simp only [List.getElem?_cons_zero, Option.some.injEq] at h
    exact ⟨by omega, h.symm⟩

theorem DInv.push {D D' : DeckState F W} (h : DInv D) (c : ℕ) (n : String) (x : Variable F W) (hx : Typed x)
    (hid : x.id = D.nextId) (h1 : D'.store = D.store ∨ D.store.addVariableTo c n D.heap.length = some D'.store)
    (h2 : D'.heap = D.heap ++ [x]) (h3 : D'.nextId = D.nextId + 1) : DInv D' := by
  have hdecl : ∀ (b : ℕ) (m : String) (v : ℕ), Declares D'.store b m v → Declares D.store b m v ∨ (b = c ∧ m = n ∧ v = D.heap.length) := by
    intro b m v hv
    rcases h1 with h1 | h1
    · rw [h1] at hv; exact Or.inl hv
    · rcases (Vars.addVariableTo_declares h1 b m v).mp hv with h' | ⟨rfl, -, rfl, rfl⟩
      · exact Or.inl h'
      · exact Or.inr ⟨rfl, rfl, rfl⟩
  refine ⟨?_, ?_, ?_, ?_, ?_, ?_, ?_, ?_⟩
  · rcases h1 with h1 | h1
    · rw [h1]; exact h.store
    · exact Vars.inv_addVariableTo h.store h1
  · intro b m v hv
    rw [h2, List.length_append, List.length_singleton]
    rcases hdecl b m v hv with h' | ⟨-, -, rfl⟩
    · have := h.bound b m v h'; omega
    · omega
  · intro b m b' m' v hv hv'
    rcases hdecl b m v hv with h' | ⟨rfl, rfl, rfl⟩
    · rcases hdecl b' m' v hv' with h'' | ⟨rfl, rfl, rfl⟩
      · exact h.once b m b' m' v h' h''
      · have := h.bound _ _ _ h'; omega
    · rcases hdecl b' m' _ hv' with h'' | ⟨rfl, rfl, -⟩
      · have := h.bound _ _ _ h''; omega
      · exact ⟨rfl, rfl⟩
  · intro v y hy
    rw [h2] at hy
    rcases get_push hy with hy | ⟨-, rfl⟩
    · exact h.typed v y hy
    · exact hx
  · intro v y hy
    rw [h2] at hy
    rcases get_push hy with hy | ⟨-, rfl⟩
    · exact h.nonneg v y hy
    · rw [hid]; exact h.next
  · intro v y hy
    rw [h2] at hy
    rcases get_push hy with hy | ⟨-, rfl⟩
    · have := h.lt v y hy; omega
    · omega
  · intro v w y z hy hz he
    rw [h2] at hy hz
    rcases get_push hy with hy' | ⟨hv, hyx⟩ <;> rcases get_push hz with hz' | ⟨hw, hzx⟩
    · exact h.inj v w y z hy' hz' he
    · have := h.lt v y hy'; rw [hzx] at he; omega
    · have := h.lt w z hz'; rw [hyx] at he; omega
    · rw [hv, hw]
  · have := h.next; omega

theorem paramVariable_typed (H : Host F W) (p : ParamSpec F) (x : ℕ) (id : ℤ) :
    Typed (paramVariable H p x id) ∧ (paramVariable H p x id).id = id := by
  unfold paramVariable
  split
  · exact ⟨⟨fun _ => rfl, fun h => by simp [Variable.ofValue] at h⟩, rfl⟩
  · split
    · exact ⟨⟨fun h => by simp [Variable.ofExpr] at h, fun _ => ⟨_, rfl, rfl⟩⟩, rfl⟩
    · exact ⟨⟨fun _ => rfl, fun h => by simp [Variable.ofValue] at h⟩, rfl⟩

theorem dinv_addParameter (H : Host F W) (c : ℕ) (s : DeckState F W × List (String × BlockParam)) (p : ParamSpec F)
    (h : DInv s.1) : DInv (addParameter H c s p).1 := by
  obtain ⟨h1, h2⟩ := paramVariable_typed H p s.1.nextExt s.1.nextId
  refine h.push c p.name _ h1 h2 ?_ rfl rfl
  simp only [addParameter]
  rcases s.1.store.addVariableTo c p.name s.1.heap.length with _ | T
  · exact Or.inl rfl
  · exact Or.inr rfl

theorem dinv_params (H : Host F W) (c : ℕ) (specs : List (ParamSpec F)) :
    ∀ s : DeckState F W × List (String × BlockParam), DInv s.1 → DInv (specs.foldl (addParameter H c) s).1 := by
  induction specs with
  | nil => intro s h; exact h
  | cons p ps ih => intro s h; exact ih _ (dinv_addParameter H c s p h)

theorem dinv_enterBlock (H : Host F W) (D : DeckState F W) (n c : String) (h : DInv D) : DInv (enterBlock H D n c) := by
  obtain ⟨l, hl, -⟩ := getClass_snd D c
  have hc : DInv (D.getClass c).2 := by rw [hl]; exact h.congr rfl rfl le_rfl
  rcases hf : (D.getClass c).1.factory with _ | specs
  · rw [enterBlock_none H D n c hf]
    exact hc.congr rfl rfl le_rfl
  · rw [enterBlock_some H D n c specs hf]
    exact (dinv_params H _ specs ((D.getClass c).2, []) hc).congr rfl rfl le_rfl

theorem dinv_createBlock (H : Host F W) (D : DeckState F W) (c n : String) (h : DInv D) : DInv (D.createBlock H c n).2 := by
  unfold DeckState.createBlock
  split
  · exact h
  · split
    · exact h
    · rename_i st hst
      refine dinv_enterBlock H _ n c ?_
      refine ⟨Vars.inv_createBlock h.store hst, ?_, ?_, h.typed, h.nonneg, h.lt, h.inj, h.next⟩
      · intro b m v hv
        exact h.bound b m v ((Vars.createBlock_declares hst b m v).mp hv)
      · intro b m b' m' v hv hv'
        exact h.once b m b' m' v ((Vars.createBlock_declares hst b m v).mp hv) ((Vars.createBlock_declares hst _ _ _).mp hv')

theorem evaluate_typed {H : Host F W} {D : DeckState F W} {e : Expr F W} {x : Variable F W} (h : D.evaluate H e = some x) :
    Typed x ∧ x.id = D.nextId ∧ x.ty = e.ty ∧ x.readOnly = false ∧ x.initialised = true := by
  unfold evaluate at h
  split at h
  · simp only [Option.map_eq_some_iff] at h
    obtain ⟨v, hv, rfl⟩ := h
    exact ⟨⟨fun _ => rfl, fun h => by simp [Variable.ofValue] at h⟩, rfl, eval_ty _ _ e v hv, rfl, rfl⟩
  · simp only [Option.some.injEq] at h
    subst h
    exact ⟨⟨fun h => by simp [Variable.ofExpr] at h, fun _ => ⟨_, rfl, rfl⟩⟩, rfl, rfl, rfl, rfl⟩

theorem dinv_storeOne (H : Host F W) (t : Ty) (D : DeckState F W) (d : String × Option (Expr F W)) (h : DInv D) :
    DInv (storeOne H t D d).2 := by
  unfold storeOne
  split
  · exact h
  · split
    · exact h
    · rename_i x hx
      obtain ⟨h1, h2, -⟩ := evaluate_typed hx
      split
      · exact h.congr rfl rfl (by simp)
      · split
        · exact h.congr rfl rfl (by simp)
        · rename_i st hst
          exact h.push D.store.cursor d.1 x h1 h2 (Or.inr hst) rfl rfl

theorem dinv_chain {α : Type} (f : DeckState F W → α → Bool × DeckState F W) (hf : ∀ D a, DInv D → DInv (f D a).2) :
    ∀ (l : List α) (D : DeckState F W), DInv D → DInv (chain f l D).2 := by
  intro l
  induction l with
  | nil => intro D h; exact h
  | cons a l ih =>
    intro D h
    rw [chain_cons]
    split
    · exact ih _ (hf D a h)
    · exact hf D a h

theorem dinv_declare (H : Host F W) (D : DeckState F W) (t : Ty) (ds) (h : DInv D) : DInv (D.declare H t ds).2 := by
  unfold declare
  split
  · exact h
  · exact dinv_chain _ (dinv_storeOne H t) _ D h

theorem dinv_update (H : Host F W) (D : DeckState F W) (n : String) (e) (h : DInv D) : DInv (D.update H n e).2 := by
  rcases hb : (D.update H n e).1 with _ | _
  · obtain ⟨k, hk, h'⟩ := update_false hb
    rw [h']; exact h.congr rfl rfl (by simp only; omega)
  · obtain ⟨e', v, x, y, x', -, -, hx, hy, hx', h'⟩ := update_true hb
    rw [h']
    obtain ⟨a1, a2, a3, a4, a5, a6, a7, a8, a9⟩ := assign_spec hx'
    obtain ⟨b1, b2, -⟩ := evaluate_typed hy
    have hlt := (List.getElem?_eq_some_iff.mp hx).1
    have hget : ∀ (w : ℕ) (z : Variable F W), (D.heap.set v x')[w]? = some z → (w = v ∧ z = x') ∨ (w ≠ v ∧ D.heap[w]? = some z) := by
      intro w z hz
      by_cases hw : v = w
      · subst hw
        rw [List.getElem?_set_self hlt, Option.some.injEq] at hz
        exact Or.inl ⟨rfl, hz.symm⟩
      · rw [List.getElem?_set_ne hw] at hz
        exact Or.inr ⟨Ne.symm hw, hz⟩
    have hid : x'.id = D.nextId := by rw [a9, b2]
    refine ⟨h.store, ?_, h.once, ?_, ?_, ?_, ?_, ?_⟩
    · intro b m w hw
      rw [List.length_set]
      exact h.bound b m w hw
    · intro w z hz
      rcases hget w z hz with ⟨-, rfl⟩ | ⟨-, hz⟩
      · unfold Typed
        rw [a5, a6, a7, a3, a2]
        exact b1
      · exact h.typed w z hz
    · intro w z hz
      rcases hget w z hz with ⟨-, rfl⟩ | ⟨-, hz⟩
      · rw [hid]; exact h.next
      · exact h.nonneg w z hz
    · intro w z hz
      show z.id < D.nextId + 1
      rcases hget w z hz with ⟨-, rfl⟩ | ⟨-, hz⟩
      · omega
      · have := h.lt w z hz; omega
    · intro w u z z' hz hz' he
      rcases hget w z hz with ⟨hw, hzx⟩ | ⟨hne, hz1⟩ <;> rcases hget u z' hz' with ⟨hu, hzx'⟩ | ⟨hne', hz2⟩
      · rw [hw, hu]
      · have := h.lt u z' hz2; rw [hzx] at he; omega
      · have := h.lt w z hz1; rw [hzx'] at he; omega
      · exact h.inj w u z z' hz1 hz2 he
    · have := h.next; show 0 ≤ D.nextId + 1; omega

theorem dinv_endBlock (D : DeckState F W) (h : DInv D) : DInv D.endBlock.2 := by
  unfold endBlock
  split
  · exact h
  · exact ⟨Vars.inv_cursorUp h.store, h.bound, h.once, h.typed, h.nonneg, h.lt, h.inj, h.next⟩

theorem dinv_step (H : Host F W) (D : DeckState F W) (s : Stmt F) (h : DInv D) : DInv (D.step H s).2 := by
  cases s with
  | decl t ds => exact dinv_declare H D t ds h
  | assign n e => exact dinv_update H D n e h
  | start c n => exact dinv_createBlock H D c n h
  | stop => exact dinv_endBlock D h

theorem dinv_run (H : Host F W) (D : DeckState F W) (deck : List (Stmt F)) (h : DInv D) : DInv (D.run H deck).2 :=
  dinv_chain _ (dinv_step H) deck D h

theorem dinv_initial (P : Program F W) :
    DInv (initial P.name P.className P.classes P.restr P.ext P.world P.nextId : DeckState F W) := by
  refine ⟨Vars.inv_create _ _, ?_, ?_, by simp [initial], by simp [initial], by simp [initial], by simp [initial],
    P.nextId_nonneg⟩
  · rintro b n v ⟨B, hB, hv⟩
    cases b with
    | zero => simp [initial, Storage.create] at hB; subst hB; simp at hv
    | succ b => simp [initial, Storage.create] at hB
  · rintro b n b' n' v ⟨B, hB, hv⟩
    cases b with
    | zero => simp [initial, Storage.create] at hB; subst hB; simp at hv
    | succ b => simp [initial, Storage.create] at hB

theorem dinv_after (P : Program F W) (deck : List (Stmt F)) : DInv (P.after deck) :=
  dinv_run _ _ _ (dinv_enterBlock _ _ _ _ (dinv_initial P))

end Schnek.Lemma.Deck
