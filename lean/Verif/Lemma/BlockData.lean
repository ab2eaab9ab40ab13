import Verif.Lemma.Blocks

namespace Schnek.Lemma.Blocks

open Schnek.Deck Schnek.Spec Schnek.Lemma.Deck Relation DeckState

variable {α : Type}

/-! ## going through the tree -/

theorem below_head {T : BlockTree} {b c : ℕ} : Below T b c ↔ c = b ∨ ∃ d, ChildOf T b d ∧ Below T d c := by
  constructor
  · intro h
    rcases ReflTransGen.cases_head h with h | ⟨d, h1, h2⟩
    · exact Or.inl h.symm
    · exact Or.inr ⟨d, h1, h2⟩
  · rintro (rfl | ⟨d, h1, h2⟩)
    · exact .refl
    · exact h2.head h1

theorem visit_spec {T : BlockTree} (hT : Ok T) (n b : ℕ) (hb : b < T.blocks.length) (hn : T.blocks.length ≤ n + b) :
    (∀ c, c ∈ T.visit n b ↔ Below T b c) ∧ (T.visit n b).Pairwise (· < ·) := by
  induction n generalizing b with
  | zero => omega
  | succ n ih =>
    have hch : ∀ c, c ∈ T.childrenOf b → (∀ e, e ∈ T.visit n c ↔ Below T c e) ∧ (T.visit n c).Pairwise (· < ·) := by
      intro c hc
      have hc' := (hT.child b c).mp hc
      have h1 := hT.lt _ _ hc'
      exact ih c (childOf_lt hc') (by omega)
    constructor
    · intro c
      rw [BlockTree.visit, List.mem_cons, List.mem_flatMap, below_head]
      constructor
      · rintro (h | ⟨d, hd, h⟩)
        · exact Or.inl h
        · exact Or.inr ⟨d, (hT.child b d).mp hd, ((hch d hd).1 c).mp h⟩
      · rintro (h | ⟨d, hd, h⟩)
        · exact Or.inl h
        · exact Or.inr ⟨d, (hT.child b d).mpr hd, ((hch d ((hT.child b d).mpr hd)).1 c).mpr h⟩
    · rw [BlockTree.visit, List.pairwise_cons]
      constructor
      · intro c hc
        rw [List.mem_flatMap] at hc
        obtain ⟨d, hd, h⟩ := hc
        have h1 := hT.lt _ _ ((hT.child b d).mp hd)
        have h2 := below_le hT.lt (((hch d hd).1 c).mp h)
        omega
      · rw [List.pairwise_flatMap]
        refine ⟨fun c hc => (hch c hc).2, ?_⟩
        have hs := hT.sorted b
        refine List.Pairwise.imp_of_mem ?_ hs
        intro c d hc hd hcd x hx y hy
        have hx' := ((hch c hc).1 x).mp hx
        have hy' := ((hch d hd).1 y).mp hy
        have h1 := below_le hT.lt hy'
        by_contra hle
        have hdx : d ≤ x := by omega
        have := hT.contig c d x hcd.le hdx hx'
        have e := siblings_disjoint hT.lt ((hT.child b c).mp hc) ((hT.child b d).mp hd) this .refl
        omega

/-! ## shared data -/

/-- the result of a search for the places `S` -/
def Res (data : ℕ → List String → Option α) (S : Place → Prop) : Option (Option α) → Prop
  | none => ∃ l l', l ≠ l' ∧ S l ∧ S l'
  | some none => ∀ l, ¬ S l
  | some (some d) => ∃ l, (∀ l', S l' ↔ l' = l) ∧ data l.1 l.2 = some d

theorem Res.congr {data : ℕ → List String → Option α} {S S' : Place → Prop} (h : ∀ l, S l ↔ S' l) {r : Option (Option α)}
    (hr : Res data S r) : Res data S' r := by
  have : S = S' := funext fun l => propext (h l)
  rw [← this]; exact hr

theorem pick_none (rs : List (Option (Option α))) : pick (none :: rs) = none := by
  simp [pick]

theorem pick_some_none (rs : List (Option (Option α))) : pick (some none :: rs) = pick rs := by
  unfold pick
  rcases h : rs.mapM id with _ | l
  · simp [h]
  · simp [h]

theorem pick_some_some (d : α) (rs : List (Option (Option α))) : pick (some (some d) :: rs) =
    match pick rs with
    | some none => some (some d)
    | _ => none := by
  unfold pick
  rcases h : rs.mapM id with _ | l
  · simp [h]
  · simp only [List.mapM_cons, h]
    show (match (some d :: l).filterMap id with
      | [] => some none
      | [d] => some (some d)
      | _ => none) = _
    have hcons : (some d :: l).filterMap id = d :: l.filterMap id := rfl
    rw [hcons]
    generalize l.filterMap id = m
    rcases m with _ | ⟨a, _ | ⟨b, m⟩⟩ <;> rfl

theorem pick_res {data : ℕ → List String → Option α} (cs : List ℕ) (f : ℕ → Option (Option α)) (S : ℕ → Place → Prop)
    (hnd : cs.Nodup) (hf : ∀ c ∈ cs, Res data (S c) (f c)) (hdis : ∀ c ∈ cs, ∀ d ∈ cs, ∀ l, S c l → S d l → c = d) :
    Res data (fun l => ∃ c ∈ cs, S c l) (pick (cs.map f)) := by
  induction cs with
  | nil =>
    show Res data _ (some none)
    intro l
    simp
  | cons c cs ih =>
    rw [List.nodup_cons] at hnd
    have ih' := ih hnd.2 (fun d hd => hf d (by simp [hd])) (fun d hd e he => hdis d (by simp [hd]) e (by simp [he]))
    have hc := hf c (by simp)
    have hne : ∀ d ∈ cs, ∀ l, S c l → S d l → False := by
      intro d hd l h1 h2
      have := hdis c (by simp) d (by simp [hd]) l h1 h2
      exact hnd.1 (this ▸ hd)
    rw [List.map_cons]
    rcases hr : f c with _ | _ | d
    · rw [hr] at hc
      rw [pick_none]
      obtain ⟨l, l', h1, h2, h3⟩ := hc
      exact ⟨l, l', h1, ⟨c, by simp, h2⟩, ⟨c, by simp, h3⟩⟩
    · rw [hr] at hc
      rw [pick_some_none]
      refine ih'.congr ?_
      intro l
      simp only [List.mem_cons, exists_eq_or_imp]
      constructor
      · exact Or.inr
      · rintro (h | h)
        · exact absurd h (hc l)
        · exact h
    · rw [hr] at hc
      rw [pick_some_some]
      obtain ⟨l, hl, hd⟩ := hc
      rcases hp : pick (cs.map f) with _ | _ | d'
      · rw [hp] at ih'
        obtain ⟨l, l', h1, ⟨a, ha, h2⟩, ⟨b, hb, h3⟩⟩ := ih'
        exact ⟨l, l', h1, ⟨a, by simp [ha], h2⟩, ⟨b, by simp [hb], h3⟩⟩
      · rw [hp] at ih'
        refine ⟨l, ?_, hd⟩
        intro l'
        simp only [List.mem_cons, exists_eq_or_imp]
        rw [hl]
        constructor
        · rintro (h | h)
          · exact h
          · exact absurd h (ih' l')
        · exact Or.inl
      · rw [hp] at ih'
        obtain ⟨l', hl', -⟩ := ih'
        obtain ⟨a, ha, h2⟩ := (hl' l').mpr rfl
        have h1 := (hl l).mpr rfl
        refine ⟨l, l', ?_, ⟨c, by simp, h1⟩, ⟨a, by simp [ha], h2⟩⟩
        rintro rfl
        exact hne a ha l h1 h2

section

variable {T : BlockTree} (hT : Ok T) (data : ℕ → List String → Option α)

theorem offers_below : ∀ (key : List String) (e : ℕ) (l : Place), Offers T data key e l → Below T e l.1
  | [], e, l, h => by
      unfold Offers at h
      rw [h.1]; exact .refl
  | x :: t, e, l, h => by
      unfold Offers at h
      rcases h with ⟨rfl, -⟩ | ⟨-, -, c, hc, -, a, ha, hl, -⟩
      · exact .refl
      · exact (ReflTransGen.trans ha (offers_below t a l hl)).head hc

theorem highest_below {key : List String} {c : ℕ} {l : Place} (h : Highest T (Offers T data key) c l) : Below T c l.1 := by
  obtain ⟨e, h1, h2, -⟩ := h
  exact ReflTransGen.trans h1 (offers_below data key e l h2)

omit data
include hT

theorem highest_own {offers : ℕ → Place → Prop} {b : ℕ} (h : ∃ l, offers b l) (l : Place) : Highest T offers b l ↔ offers b l := by
  constructor
  · rintro ⟨e, h1, h2, h3⟩
    have := h3 b .refl h1 h
    rw [this]; exact h2
  · intro hl
    refine ⟨b, .refl, hl, ?_⟩
    intro e' h1 h2 _
    exact below_antisymm hT.lt h2 h1

theorem highest_children {offers : ℕ → Place → Prop} {b : ℕ} (h : ∀ l, ¬ offers b l) (l : Place) :
    Highest T offers b l ↔ ∃ c ∈ T.childrenOf b, Highest T offers c l := by
  constructor
  · rintro ⟨e, h1, h2, h3⟩
    rcases below_head.mp h1 with rfl | ⟨d, hd, hde⟩
    · exact absurd h2 (h l)
    · refine ⟨d, (hT.child b d).mpr hd, e, hde, h2, ?_⟩
      intro e' he' he'e ho
      exact h3 e' (he'.head hd) he'e ho
  · rintro ⟨c, hc, e, h1, h2, h3⟩
    have hc' := (hT.child b c).mp hc
    refine ⟨e, h1.head hc', h2, ?_⟩
    intro e' he' he'e ho
    rcases below_head.mp he' with rfl | ⟨d, hd, hde'⟩
    · obtain ⟨l', hl'⟩ := ho
      exact absurd hl' (h l')
    · have : d = c := siblings_disjoint hT.lt hd hc' (ReflTransGen.trans hde' he'e) h1
      subst this
      exact h3 e' hde' he'e ho

variable {data : ℕ → List String → Option α}

/-- the first two steps of `getData` -/
def local? (T : BlockTree) (data : ℕ → List String → Option α) (n : ℕ) (key : List String) (b : ℕ) : Option (Option α) :=
  match data b key with
  | some d => some (some d)
  | none =>
    match key with
    | h :: t :: ts => pick (((T.childrenOf b).filter fun c => T.nameOf c = some h).map (T.getDown data n (t :: ts)))
    | _ => some none

omit hT in
theorem getDown_succ (n : ℕ) (key : List String) (b : ℕ) : T.getDown data (n + 1) key b =
    match local? T data n key b with
    | none => none
    | some (some d) => some (some d)
    | some none => pick ((T.childrenOf b).map (T.getDown data n key)) := by
  unfold local?
  rcases hd : data b key with _ | d
  · rcases key with _ | ⟨h, _ | ⟨t, ts⟩⟩ <;> simp only [BlockTree.getDown, hd] <;>
      first | rfl | (split <;> first | rfl | (split <;> rfl)) 
  · rcases key with _ | ⟨h, _ | ⟨t, ts⟩⟩ <;> simp only [BlockTree.getDown, hd]

omit hT in
theorem getUp_succ (n m : ℕ) (key : List String) (b : ℕ) : T.getUp data n (m + 1) key b =
    match local? T data n key b with
    | none => none
    | some (some d) => some (some d)
    | some none =>
      match T.parentOf b with
      | some p => T.getUp data n m key p
      | none => pick ((T.childrenOf b).map (T.getDown data n key)) := by
  unfold local?
  rcases hd : data b key with _ | d
  · rcases key with _ | ⟨h, _ | ⟨t, ts⟩⟩ <;> simp only [BlockTree.getUp, hd] <;>
      first | rfl | (split <;> first | rfl | (split <;> rfl)) 
  · rcases key with _ | ⟨h, _ | ⟨t, ts⟩⟩ <;> simp only [BlockTree.getUp, hd]

theorem local_res (n : ℕ) (key : List String) (b : ℕ)
    (ih : ∀ key, ∀ c ∈ T.childrenOf b, Res data (Highest T (Offers T data key) c) (T.getDown data n key c)) :
    Res data (Offers T data key b) (local? T data n key b) := by
  unfold local?
  rcases hd : data b key with _ | d
  · rcases key with _ | ⟨h, _ | ⟨t, ts⟩⟩
    · intro l
      unfold Offers
      simp [hd]
    · intro l
      unfold Offers
      simp [hd]
    · simp only
      have := pick_res (data := data) ((T.childrenOf b).filter fun c => T.nameOf c = some h) (T.getDown data n (t :: ts))
        (fun c => Highest T (Offers T data (t :: ts)) c)
        (((hT.sorted b).imp (fun h => Nat.ne_of_lt h)).filter _) (fun c hc => ih _ c (List.mem_of_mem_filter hc))
        (fun c hc d hd l h1 h2 => siblings_disjoint hT.lt ((hT.child b c).mp (List.mem_of_mem_filter hc))
          ((hT.child b d).mp (List.mem_of_mem_filter hd)) (highest_below data h1) (highest_below data h2))
      refine this.congr ?_
      intro l
      rw [Offers]
      simp only [hd, ne_eq, not_true_eq_false, and_false, reduceCtorEq, not_false_eq_true, true_and, false_or, List.mem_filter,
        decide_eq_true_eq, hT.child, and_assoc]
  · refine ⟨(b, key), ?_, hd⟩
    intro l'
    rcases key with _ | ⟨h, t⟩ <;> simp [Offers, hd]

theorem offers_some {n : ℕ} {key : List String} {b : ℕ} {d : α} (h : Res data (Offers T data key b) (some (some d))) :
    ∃ l, Offers T data key b l := by
  obtain ⟨l, hl, -⟩ := h
  exact ⟨l, (hl l).mpr rfl⟩

theorem children_res (n : ℕ) (key : List String) (b : ℕ)
    (ih : ∀ key, ∀ c ∈ T.childrenOf b, Res data (Highest T (Offers T data key) c) (T.getDown data n key c))
    (hno : ∀ l, ¬ Offers T data key b l) :
    Res data (Highest T (Offers T data key) b) (pick ((T.childrenOf b).map (T.getDown data n key))) := by
  have := pick_res (data := data) (T.childrenOf b) (T.getDown data n key) (fun c => Highest T (Offers T data key) c)
    ((hT.sorted b).imp (fun h => Nat.ne_of_lt h)) (fun c hc => ih _ c hc)
    (fun c hc d hd l h1 h2 => siblings_disjoint hT.lt ((hT.child b c).mp hc) ((hT.child b d).mp hd)
      (highest_below data h1) (highest_below data h2))
  exact this.congr fun l => (highest_children hT hno l).symm

theorem getDown_res (n : ℕ) (key : List String) (b : ℕ) (hb : b < T.blocks.length) (hn : T.blocks.length ≤ n + b) :
    Res data (Highest T (Offers T data key) b) (T.getDown data n key b) := by
  induction n generalizing key b with
  | zero => omega
  | succ n ih =>
    have ih' : ∀ key, ∀ c ∈ T.childrenOf b, Res data (Highest T (Offers T data key) c) (T.getDown data n key c) := by
      intro key c hc
      have hc' := (hT.child b c).mp hc
      have h1 := hT.lt _ _ hc'
      exact ih key c (childOf_lt hc') (by omega)
    have hl := local_res hT n key b ih'
    rw [getDown_succ]
    rcases hr : local? T data n key b with _ | _ | d
    · rw [hr] at hl
      refine Res.congr (fun l => (highest_own hT ?_ l).symm) hl
      obtain ⟨l, -, -, h, -⟩ := hl
      exact ⟨l, h⟩
    · rw [hr] at hl
      exact children_res hT n key b ih' hl
    · rw [hr] at hl
      exact Res.congr (fun l => (highest_own hT (offers_some hT (n := n) hl) l).symm) hl

theorem sees_own {key : List String} {b : ℕ} (h : ∃ l, Offers T data key b l) (l : Place) :
    Sees T data key b l ↔ Offers T data key b l := by
  constructor
  · rintro (⟨e, h1, h2, h3⟩ | ⟨h1, -⟩)
    · rw [below_antisymm hT.lt (h3 b .refl h) h1]; exact h2
    · obtain ⟨l', hl'⟩ := h
      exact absurd hl' (h1 b .refl l')
  · intro hl
    exact Or.inl ⟨b, .refl, hl, fun e' he' _ => he'⟩

omit hT in
theorem below_tail {p b : ℕ} (hp : ChildOf T p b) (e : ℕ) : Below T e b ↔ e = b ∨ Below T e p := by
  constructor
  · intro h
    rcases ReflTransGen.cases_tail h with h | ⟨c, h1, h2⟩
    · exact Or.inl h.symm
    · rw [childOf_unique h2 hp] at h1
      exact Or.inr h1
  · rintro (rfl | h)
    · exact .refl
    · exact h.tail hp

omit hT in
theorem sees_parent {key : List String} {p b : ℕ} (hp : ChildOf T p b) (h : ∀ l, ¬ Offers T data key b l) (l : Place) :
    Sees T data key b l ↔ Sees T data key p l := by
  have hout : ∀ r, Outermost T r b ↔ Outermost T r p := by
    intro r
    unfold Outermost
    rw [below_tail hp]
    constructor
    · rintro ⟨rfl | h1, h2⟩
      · exact absurd hp (h2 p)
      · exact ⟨h1, h2⟩
    · rintro ⟨h1, h2⟩; exact ⟨Or.inr h1, h2⟩
  unfold Sees
  simp only [hout, below_tail hp]
  constructor
  · rintro (⟨e, rfl | h1, h2, h3⟩ | ⟨h1, h2⟩)
    · exact absurd h2 (h l)
    · exact Or.inl ⟨e, h1, h2, fun e' he' => h3 e' (Or.inr he')⟩
    · exact Or.inr ⟨fun e he => h1 e (Or.inr he), h2⟩
  · rintro (⟨e, h1, h2, h3⟩ | ⟨h1, h2⟩)
    · refine Or.inl ⟨e, Or.inr h1, h2, ?_⟩
      rintro e' (rfl | he') ho
      · obtain ⟨l', hl'⟩ := ho
        exact absurd hl' (h l')
      · exact h3 e' he' ho
    · refine Or.inr ⟨?_, h2⟩
      rintro e (rfl | he)
      · exact h
      · exact h1 e he

omit hT in
theorem sees_root {key : List String} {b : ℕ} (hp : ∀ p, ¬ ChildOf T p b) (h : ∀ l, ¬ Offers T data key b l) (l : Place) :
    Sees T data key b l ↔ Highest T (Offers T data key) b l := by
  have hb : ∀ e, Below T e b → e = b := by
    intro e he
    rcases ReflTransGen.cases_tail he with h | ⟨c, -, hc⟩
    · exact h.symm
    · exact absurd hc (hp c)
  constructor
  · rintro (⟨e, h1, h2, -⟩ | ⟨-, r, ⟨h1, -⟩, h2⟩)
    · rw [hb e h1] at h2; exact absurd h2 (h l)
    · rw [hb r h1] at h2; exact h2
  · intro hl
    refine Or.inr ⟨?_, b, ⟨.refl, hp⟩, hl⟩
    intro e he
    rw [hb e he]; exact h

theorem getUp_res (n m : ℕ) (key : List String) (b : ℕ) (hb : b < T.blocks.length) (hn : T.blocks.length ≤ n) (hm : b < m) :
    Res data (Sees T data key b) (T.getUp data n m key b) := by
  induction m generalizing b with
  | zero => omega
  | succ m ih =>
    have ih' : ∀ key, ∀ c ∈ T.childrenOf b, Res data (Highest T (Offers T data key) c) (T.getDown data n key c) := by
      intro key c hc
      exact getDown_res hT n key c (childOf_lt ((hT.child b c).mp hc)) (by omega)
    have hl := local_res hT n key b ih'
    rw [getUp_succ]
    rcases hr : local? T data n key b with _ | _ | d
    · rw [hr] at hl
      refine Res.congr (fun l => (sees_own hT ?_ l).symm) hl
      obtain ⟨l, -, -, h, -⟩ := hl
      exact ⟨l, h⟩
    · rw [hr] at hl
      simp only
      rcases hp : T.parentOf b with _ | p
      · have hno : ∀ p, ¬ ChildOf T p b := by
          intro p h; rw [childOf_iff, hp] at h; simp at h
        exact Res.congr (fun l => (sees_root hno hl l).symm) (children_res hT n key b ih' hl)
      · have hp' := (childOf_iff T p b).mpr hp
        have h1 := hT.lt _ _ hp'
        exact Res.congr (fun l => (sees_parent hp' hl l).symm) (ih p (by omega) (by omega))
    · rw [hr] at hl
      exact Res.congr (fun l => (sees_own hT (offers_some hT (n := n) hl) l).symm) hl

end

end Schnek.Lemma.Blocks
