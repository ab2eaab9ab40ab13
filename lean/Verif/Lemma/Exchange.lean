import Verif.Model.Exchange
import Verif.Lemma.Range
import Verif.Props.Range
import Verif.Props.Boundary
import Mathlib.Algebra.BigOperators.Fin
import Mathlib.Order.Interval.Finset.Basic
import Mathlib.Data.Int.Interval
import Mathlib.Data.Pi.Interval
import Mathlib.Algebra.BigOperators.Group.Finset.Sigma
import Mathlib.Tactic.Ring

/-!
# Lemmas about parallel iteration and the serial exchange
-/

namespace Schnek.Lemma.Exchange

open Schnek Schnek.Spec Schnek.Lemma Schnek.Props Function

variable {n : ℕ} {σ T : Type}

theorem parLoop_unique {r₁ r₂ : Range n} {body : Idx n → Idx n → σ → Option σ} {it₁ it₂ : RangeIter n} {s : σ}
    {o o' : Option σ} (h : ParLoop r₁ r₂ body it₁ it₂ s o) (h' : ParLoop r₁ r₂ body it₁ it₂ s o') : o = o' := by
  induction h with
  | done he =>
    cases h' with
    | done _ => rfl
    | fault hne _ => exact absurd he hne
    | step hne _ _ => exact absurd he hne
  | fault hne hb =>
    cases h' with
    | done he => exact absurd he hne
    | fault _ _ => rfl
    | step _ hb' _ => rw [hb] at hb'; cases hb'
  | step hne hb _ ih =>
    cases h' with
    | done he => exact absurd he hne
    | fault _ hb' => rw [hb] at hb'; cases hb'
    | step _ hb' h2 => rw [hb] at hb'; cases hb'; exact ih h2

/-- a range moved by `k` along `d` -/
def moveRange (d : Fin n) (k : ℤ) (r : Range n) : Range n := ⟨moveBy d k r.lo, moveBy d k r.hi⟩

theorem moveBy_apply (d : Fin n) (k : ℤ) (p : Idx n) (i : Fin n) :
    moveBy d k p i = if i = d then p i + k else p i := by
  unfold moveBy
  by_cases h : i = d
  · subst h; simp
  · simp [h]

theorem moveBy_inj {d : Fin n} {k : ℤ} {p q : Idx n} (h : moveBy d k p = moveBy d k q) : p = q := by
  funext i
  have := congrFun h i
  rw [moveBy_apply, moveBy_apply] at this
  split at this <;> omega

theorem moveBy_update (d : Fin n) (k : ℤ) (p : Idx n) (i : Fin n) (x : ℤ) :
    moveBy d k (update p i x) = update (moveBy d k p) i (if i = d then x + k else x) := by
  funext j
  simp only [moveBy_apply, update_apply]
  by_cases h1 : j = i
  · subst h1; simp
  · simp [h1]

theorem incLoop_move (r : Range n) (d : Fin n) (k : ℤ) :
    ∀ (m : ℕ) (hm : m ≤ n) (p : Idx n),
      RangeIter.incLoop (moveRange d k r) m hm (moveBy d k p) =
        (moveBy d k (RangeIter.incLoop r m hm p).1, (RangeIter.incLoop r m hm p).2)
  | 0, _, _ => rfl
  | m + 1, hm, p => by
    rw [RangeIter.incLoop, RangeIter.incLoop]
    simp only [update_self, update_idem]
    have e1 : moveBy d k p ⟨m, hm⟩ + 1 = if (⟨m, hm⟩ : Fin n) = d then p ⟨m, hm⟩ + 1 + k else p ⟨m, hm⟩ + 1 := by
      rw [moveBy_apply]; split <;> omega
    have e2 : (moveRange d k r).hi ⟨m, hm⟩ = if (⟨m, hm⟩ : Fin n) = d then r.hi ⟨m, hm⟩ + k else r.hi ⟨m, hm⟩ := by
      simp only [moveRange, moveBy_apply]
    have e3 : (moveRange d k r).lo ⟨m, hm⟩ = if (⟨m, hm⟩ : Fin n) = d then r.lo ⟨m, hm⟩ + k else r.lo ⟨m, hm⟩ := by
      simp only [moveRange, moveBy_apply]
    have hiff : (moveBy d k p ⟨m, hm⟩ + 1 > (moveRange d k r).hi ⟨m, hm⟩) ↔ (p ⟨m, hm⟩ + 1 > r.hi ⟨m, hm⟩) := by
      rw [e1, e2]; split <;> omega
    by_cases hc : p ⟨m, hm⟩ + 1 > r.hi ⟨m, hm⟩
    · rw [if_pos hc, if_pos (hiff.mpr hc), ← incLoop_move r d k m, moveBy_update, e3]
    · rw [if_neg hc, if_neg (mt hiff.mp hc)]
      simp only [moveBy_update, e1]

/-- an iterator moved by `k` along `d` -/
def moveIter (d : Fin n) (k : ℤ) (it : RangeIter n) : RangeIter n := ⟨moveBy d k it.pos, it.atEnd⟩

theorem increment_move (r : Range n) (d : Fin n) (k : ℤ) (it : RangeIter n) :
    (moveIter d k it).increment (moveRange d k r) = moveIter d k (it.increment r) := by
  simp only [RangeIter.increment, moveIter, incLoop_move]

theorem parLoop_of_iterLoop {r : Range n} (d : Fin n) (k : ℤ) (body : Idx n → Idx n → σ → Option σ)
    {it : RangeIter n} {l : List (Idx n)} (h : r.IterLoop it l) :
    ∀ s, ParLoop r (moveRange d k r) body it (moveIter d k it) s
      (l.foldlM (fun s p => body p (moveBy d k p) s) s) := by
  induction h with
  | done he => intro s; exact .done he
  | step hne _ ih =>
    rename_i it l _
    intro s
    rw [List.foldlM_cons]
    cases hb : body it.pos (moveBy d k it.pos) s with
    | none => exact .fault hne hb
    | some s' => exact .step hne hb (by rw [increment_move]; exact ih s')

/-! ## loops over disjoint pairs of cells -/

/-- `c a, c b := f (c a) (c b)` -/
def pairStep {α : Type} [DecidableEq α] (f : T → T → T × T) (a b : α) (c : α → T) : α → T :=
  update (update c a (f (c a) (c b)).1) b (f (c a) (c b)).2

theorem pairs_foldl {α ι : Type} [DecidableEq α] (f : T → T → T × T) (a b : ι → α) :
    ∀ (l : List ι) (c : α → T), l.Pairwise (fun p q => a p ≠ a q ∧ b p ≠ b q) →
      (∀ p ∈ l, ∀ q ∈ l, a p ≠ b q) →
      (∀ p ∈ l, (l.foldl (fun c p => pairStep f (a p) (b p) c) c) (a p) = (f (c (a p)) (c (b p))).1 ∧
        (l.foldl (fun c p => pairStep f (a p) (b p) c) c) (b p) = (f (c (a p)) (c (b p))).2) ∧
      ∀ x, (∀ p ∈ l, x ≠ a p ∧ x ≠ b p) → (l.foldl (fun c p => pairStep f (a p) (b p) c) c) x = c x
  | [], c, _, _ => by simp
  | p :: l, c, h1, h2 => by
    rw [List.pairwise_cons] at h1
    obtain ⟨ih1, ih2⟩ := pairs_foldl f a b l (pairStep f (a p) (b p) c) h1.2
      (fun q hq q' hq' => h2 q (List.mem_cons_of_mem _ hq) q' (List.mem_cons_of_mem _ hq'))
    rw [List.foldl_cons]
    have hpp : a p ≠ b p := h2 p List.mem_cons_self p List.mem_cons_self
    have hkeep : ∀ x, x ≠ a p → x ≠ b p → pairStep f (a p) (b p) c x = c x := fun x hx hy => by
      simp [pairStep, hx, hy]
    constructor
    · intro q hq
      rcases List.mem_cons.mp hq with rfl | hq
      · rw [ih2 (a q), ih2 (b q)]
        · simp [pairStep, hpp]
        · intro r hr
          exact ⟨(h2 r (List.mem_cons_of_mem _ hr) q List.mem_cons_self).symm, (h1.1 r hr).2⟩
        · intro r hr
          exact ⟨(h1.1 r hr).1, h2 q List.mem_cons_self r (List.mem_cons_of_mem _ hr)⟩
      · obtain ⟨e1, e2⟩ := ih1 q hq
        rw [e1, e2]
        rw [hkeep (a q) (h1.1 q hq).1.symm (h2 q (List.mem_cons_of_mem _ hq) p List.mem_cons_self),
          hkeep (b q) (h2 p List.mem_cons_self q (List.mem_cons_of_mem _ hq)).symm (h1.1 q hq).2.symm]
        exact ⟨rfl, rfl⟩
    · intro x hx
      rw [ih2 x fun r hr => hx r (List.mem_cons_of_mem _ hr)]
      exact hkeep x (hx p List.mem_cons_self).1 (hx p List.mem_cons_self).2

theorem copyCell_eq (g : GridMap n T) (a b : Idx n) (ha : g.range.inside a = true) (hb : g.range.inside b = true)
    (hab : a ≠ b) :
    Serial.copyCell a b g = some ⟨g.range, pairStep (fun _ y => (y, y)) a b g.cell⟩ := by
  simp only [Serial.copyCell, GridMap.read, GridMap.write, ha, hb, if_true, Option.bind_some, pairStep, Option.some.injEq,
    GridMap.mk.injEq, true_and]
  funext x
  by_cases h : x = b
  · subst h; simp [hab.symm]
  · simp [h]

theorem addCell_eq [Add T] (g : GridMap n T) (a b : Idx n) (ha : g.range.inside a = true)
    (hb : g.range.inside b = true) :
    Serial.addCell a b g = some ⟨g.range, pairStep (fun x y => (x + y, x + y)) a b g.cell⟩ := by
  simp only [Serial.addCell, Serial.copyCell, GridMap.read, GridMap.write, ha, hb, if_true, Option.bind_some, pairStep,
    update_self]

theorem pairStep_swap {α : Type} [DecidableEq α] (f : T → T → T × T) {a b : α} (h : a ≠ b) (c : α → T) :
    pairStep f b a c = pairStep (fun x y => ((f y x).2, (f y x).1)) a b c := by
  simp only [pairStep]
  exact update_comm h.symm _ _ _

theorem foldlM_pairs {ι : Type} (R : Range n) (f : T → T → T × T) (a b : ι → Idx n)
    (body : ι → GridMap n T → Option (GridMap n T)) :
    ∀ (l : List ι) (c : Idx n → T),
      (∀ p ∈ l, ∀ c, body p ⟨R, c⟩ = some ⟨R, pairStep f (a p) (b p) c⟩) →
      l.foldlM (fun g p => body p g) (⟨R, c⟩ : GridMap n T) =
        some ⟨R, l.foldl (fun c p => pairStep f (a p) (b p) c) c⟩
  | [], c, _ => rfl
  | p :: l, c, h => by
    rw [List.foldlM_cons, h p List.mem_cons_self]
    exact foldlM_pairs R f a b body l _ fun q hq => h q (List.mem_cons_of_mem _ hq)

/-- The outcome of one of the loops: iterate `r` and `r` moved by `k` along `d` in step, with a body that combines the two
cells; the two boxes are disjoint and inside of the grid. -/
theorem parLoop_pairs {r : Range n} (hne : ∀ i, r.lo i ≤ r.hi i) (d : Fin n) (k : ℤ) (R : Range n) (c : Idx n → T)
    (f : T → T → T × T) (body : Idx n → Idx n → GridMap n T → Option (GridMap n T))
    (hbody : ∀ p q c, R.inside p = true → R.inside q = true → p ≠ q →
      body p q ⟨R, c⟩ = some ⟨R, pairStep f p q c⟩)
    (hin : ∀ p, InBox r.lo r.hi p → R.inside p = true ∧ R.inside (moveBy d k p) = true)
    (hdisj : ∀ p q, InBox r.lo r.hi p → InBox r.lo r.hi q → p ≠ moveBy d k q) :
    ∃ c' : Idx n → T, (∀ out, ParLoop r (moveRange d k r) body r.iterBegin (moveRange d k r).iterBegin ⟨R, c⟩ out ↔
        out = some ⟨R, c'⟩) ∧
      (∀ p, InBox r.lo r.hi p → c' p = (f (c p) (c (moveBy d k p))).1 ∧
        c' (moveBy d k p) = (f (c p) (c (moveBy d k p))).2) ∧
      ∀ x, (∀ p, InBox r.lo r.hi p → x ≠ p ∧ x ≠ moveBy d k p) → c' x = c x := by
  obtain ⟨l, h1, h2⟩ := C01_iterator_enumerates_range r hne
  have h3 := parLoop_of_iterLoop (σ := GridMap n T) d k body ((h2 l).mpr rfl) ⟨R, c⟩
  rw [foldlM_pairs R f id (moveBy d k) (fun p g => body p (moveBy d k p) g) l c] at h3
  · refine ⟨_, fun out => ⟨fun h => parLoop_unique h h3, ?_⟩, ?_⟩
    · rintro rfl; exact h3
    · obtain ⟨g1, g2⟩ := pairs_foldl f id (moveBy d k) l c
        (h1.nodup.imp fun {p q} h => ⟨h, fun h' => h (moveBy_inj h')⟩)
        (fun p hp q hq => hdisj p q ((h1.mem_iff p).mp hp) ((h1.mem_iff q).mp hq))
      exact ⟨fun p hp => g1 p ((h1.mem_iff p).mpr hp), fun x hx => g2 x fun p hp => hx p ((h1.mem_iff p).mp hp)⟩
  · intro p hp c
    have hp' := (h1.mem_iff p).mp hp
    exact hbody p _ c (hin p hp').1 (hin p hp').2 (hdisj p p hp' hp')

/-! ## one dimension -/

/-- assumptions about the boundary: at least one ghost cell, inner width at least the ghost width -/
structure Wide (B : Boundary n) : Prop where
  delta : 1 ≤ B.delta
  width : ∀ i, B.delta ≤ innerWidth B i

theorem ghost_move (B : Boundary n) (d : Fin n) :
    B.ghostSourceDomain d .max = moveRange d (innerWidth B d) (B.ghostDomain d .min) ∧
    B.ghostDomain d .max = moveRange d (innerWidth B d) (B.ghostSourceDomain d .min) := by
  obtain ⟨h1, h2, h3, h4⟩ := C16_corners B d
  have key : ∀ p : Idx n, moveBy d (innerWidth B d) (moveBy d (-innerWidth B d) p) = p := fun p => by
    funext i; rw [moveBy_apply, moveBy_apply]; split <;> omega
  constructor
  · simp only [moveRange, ← h1, ← h2]
  · simp only [moveRange, h3, h4, key]

theorem ghost_box {B : Boundary n} (hB : Wide B) (d : Fin n) (p : Idx n) :
    InBox (B.ghostDomain d .min).lo (B.ghostDomain d .min).hi p ↔
      InBox B.size.lo B.size.hi p ∧ p d < B.size.lo d + B.delta := by
  have hδ := hB.delta
  have hw := hB.width d
  simp only [innerWidth, Boundary.innerDomain] at hw
  simp only [InBox, Boundary.ghostDomain]
  constructor
  · intro h
    have hd := h d
    simp only [update_self] at hd
    refine ⟨fun i => ?_, by omega⟩
    by_cases hi : i = d
    · subst hi; omega
    · have := h i; rw [update_of_ne hi] at this; exact this
  · rintro ⟨h1, h2⟩ i
    by_cases hi : i = d
    · subst hi; simp only [update_self]; have := h1 i; omega
    · rw [update_of_ne hi]; exact h1 i

theorem source_box {B : Boundary n} (hB : Wide B) (d : Fin n) (p : Idx n) :
    InBox (B.ghostSourceDomain d .min).lo (B.ghostSourceDomain d .min).hi p ↔
      InBox B.size.lo B.size.hi p ∧ B.size.lo d + B.delta ≤ p d ∧ p d < B.size.lo d + 2 * B.delta := by
  have hδ := hB.delta
  have hw := hB.width d
  simp only [innerWidth, Boundary.innerDomain] at hw
  simp only [InBox, Boundary.ghostSourceDomain]
  constructor
  · intro h
    have hd := h d
    simp only [update_self] at hd
    refine ⟨fun i => ?_, by omega, by omega⟩
    by_cases hi : i = d
    · subst hi; omega
    · have := h i; simp only [update_of_ne hi] at this; exact this
  · rintro ⟨h1, h2⟩ i
    by_cases hi : i = d
    · subst hi; simp only [update_self]; have := h1 i; omega
    · simp only [update_of_ne hi]; exact h1 i

theorem inBox_moveBy {lo hi : Idx n} {p : Idx n} {d : Fin n} {k : ℤ} (hp : InBox lo hi p)
    (h : lo d ≤ p d + k ∧ p d + k ≤ hi d) : InBox lo hi (moveBy d k p) := by
  intro i
  rw [moveBy_apply]
  by_cases hi : i = d
  · subst hi; simpa using h
  · simpa [hi] using hp i

/-- the local domain is part of the grid -/
def Covers (R : Range n) (B : Boundary n) : Prop := ∀ p, InBox B.size.lo B.size.hi p → R.inside p = true

/-- one dimension of exchange/accumulate as two loops with a common cell operation `f`; `fl` acts on the low ghost / high
source pair, `fh` on the low source / high ghost pair -/
theorem dim_spec {B : Boundary n} (hB : Wide B) (d : Fin n) (R : Range n) (hR : Covers R B) (c : Idx n → T)
    (f₁ f₂ : T → T → T × T) (body₁ body₂ : Idx n → Idx n → GridMap n T → Option (GridMap n T))
    (hb₁ : ∀ p q c, R.inside p = true → R.inside q = true → p ≠ q → body₁ p q ⟨R, c⟩ = some ⟨R, pairStep f₁ p q c⟩)
    (hb₂ : ∀ p q c, R.inside p = true → R.inside q = true → p ≠ q → body₂ p q ⟨R, c⟩ = some ⟨R, pairStep f₂ p q c⟩) :
    ∃ c₁ c₂ : Idx n → T,
      (∀ out, (∃ mid, ParLoop (B.ghostDomain d .min) (B.ghostSourceDomain d .max) body₁ (B.ghostDomain d .min).iterBegin
          (B.ghostSourceDomain d .max).iterBegin ⟨R, c⟩ mid ∧
        match mid with
        | none => out = none
        | some g₁ => ParLoop (B.ghostSourceDomain d .min) (B.ghostDomain d .max) body₂
            (B.ghostSourceDomain d .min).iterBegin (B.ghostDomain d .max).iterBegin g₁ out) ↔ out = some ⟨R, c₂⟩) ∧
      (∀ p, InBox B.size.lo B.size.hi p → p d < B.size.lo d + B.delta →
        c₁ p = (f₁ (c p) (c (moveBy d (innerWidth B d) p))).1 ∧
        c₁ (moveBy d (innerWidth B d) p) = (f₁ (c p) (c (moveBy d (innerWidth B d) p))).2) ∧
      (∀ x, ¬ (InBox B.size.lo B.size.hi x ∧ (x d < B.size.lo d + B.delta ∨
          B.size.lo d + innerWidth B d ≤ x d ∧ x d < B.size.lo d + B.delta + innerWidth B d)) → c₁ x = c x) ∧
      (∀ p, InBox B.size.lo B.size.hi p → B.size.lo d + B.delta ≤ p d → p d < B.size.lo d + 2 * B.delta →
        c₂ p = (f₂ (c₁ p) (c₁ (moveBy d (innerWidth B d) p))).1 ∧
        c₂ (moveBy d (innerWidth B d) p) = (f₂ (c₁ p) (c₁ (moveBy d (innerWidth B d) p))).2) ∧
      (∀ x, ¬ (InBox B.size.lo B.size.hi x ∧ ((B.size.lo d + B.delta ≤ x d ∧ x d < B.size.lo d + 2 * B.delta) ∨
          B.size.lo d + B.delta + innerWidth B d ≤ x d)) → c₂ x = c₁ x) := by
  have hδ := hB.delta
  have hw := hB.width
  have hN : innerWidth B d = B.size.hi d - B.size.lo d + 1 - 2 * B.delta := by
    simp only [innerWidth, Boundary.innerDomain]; ring
  have hwd := hw d
  have hne : ∀ i, B.size.lo i ≤ B.size.hi i := fun i => by
    have := hw i; simp only [innerWidth, Boundary.innerDomain] at this; omega
  obtain ⟨e1, e2⟩ := ghost_move B d
  rw [e1, e2]
  have mv : ∀ p : Idx n, moveBy d (innerWidth B d) p d = p d + innerWidth B d := fun p => by
    rw [moveBy_apply, if_pos rfl]
  obtain ⟨c₁, A1, A2, A3⟩ := parLoop_pairs (r := B.ghostDomain d .min)
    (fun i => by
      simp only [Boundary.ghostDomain]
      by_cases hi : i = d
      · subst hi; simp only [update_self]; omega
      · simp only [update_of_ne hi]; exact hne i) d (innerWidth B d) R c f₁ body₁ hb₁
    (fun p hp => by
      rw [ghost_box hB] at hp
      have := hp.1 d
      exact ⟨hR p hp.1, hR _ (inBox_moveBy hp.1 (by omega))⟩)
    (fun p q hp hq h => by
      rw [ghost_box hB] at hp hq
      have h1 := congrFun h d
      rw [mv] at h1
      have := hq.1 d
      omega)
  obtain ⟨c₂, B1, B2, B3⟩ := parLoop_pairs (r := B.ghostSourceDomain d .min)
    (fun i => by
      simp only [Boundary.ghostSourceDomain]
      by_cases hi : i = d
      · subst hi; simp only [update_self]; omega
      · simp only [update_of_ne hi]; exact hne i) d (innerWidth B d) R c₁ f₂ body₂ hb₂
    (fun p hp => by
      rw [source_box hB] at hp
      have := hp.1 d
      exact ⟨hR p hp.1, hR _ (inBox_moveBy hp.1 (by omega))⟩)
    (fun p q hp hq h => by
      rw [source_box hB] at hp hq
      have h1 := congrFun h d
      rw [mv] at h1
      have := hq.1 d
      omega)
  refine ⟨c₁, c₂, fun out => ?_, ?_, ?_, ?_, ?_⟩
  · constructor
    · rintro ⟨mid, m1, m2⟩
      rw [A1] at m1
      subst m1
      exact (B1 out).mp m2
    · rintro rfl
      exact ⟨some ⟨R, c₁⟩, (A1 _).mpr rfl, (B1 _).mpr rfl⟩
  · intro p hp hg
    exact A2 p ((ghost_box hB d p).mpr ⟨hp, hg⟩)
  · intro x hx
    refine A3 x fun p hp => ?_
    rw [ghost_box hB] at hp
    have hpd := hp.1 d
    constructor
    · rintro rfl; exact hx ⟨hp.1, Or.inl hp.2⟩
    · rintro rfl
      exact hx ⟨inBox_moveBy hp.1 (by omega), Or.inr (by rw [mv]; omega)⟩
  · intro p hp h1 h2
    exact B2 p ((source_box hB d p).mpr ⟨hp, h1, h2⟩)
  · intro x hx
    refine B3 x fun p hp => ?_
    rw [source_box hB] at hp
    have hpd := hp.1 d
    constructor
    · rintro rfl; exact hx ⟨hp.1, Or.inl hp.2⟩
    · rintro rfl
      exact hx ⟨inBox_moveBy hp.1 (by omega), Or.inr (by rw [mv]; omega)⟩

theorem exchangeDim_spec {B : Boundary n} (hB : Wide B) (d : Fin n) (R : Range n) (hR : Covers R B) (c : Idx n → T) :
    ∃ c' : Idx n → T, (∀ out, Serial.ExchangeDim B d ⟨R, c⟩ out ↔ out = some ⟨R, c'⟩) ∧
      (∀ p, InBox B.size.lo B.size.hi p → p d < B.size.lo d + B.delta → c' p = c (moveBy d (innerWidth B d) p)) ∧
      (∀ p, InBox B.size.lo B.size.hi p → B.size.hi d - B.delta < p d → c' p = c (moveBy d (-innerWidth B d) p)) ∧
      (∀ p, ¬ (InBox B.size.lo B.size.hi p ∧ (p d < B.size.lo d + B.delta ∨ B.size.hi d - B.delta < p d)) →
        c' p = c p) := by
  have hN : innerWidth B d = B.size.hi d - B.size.lo d + 1 - 2 * B.delta := by
    simp only [innerWidth, Boundary.innerDomain]; ring
  have hδ := hB.delta
  have hwd := hB.width d
  obtain ⟨c₁, c₂, h1, h2, h3, h4, h5⟩ := dim_spec (T := T) hB d R hR c (fun _ y => (y, y)) (fun x _ => (x, x))
    (fun p q => Serial.copyCell p q) (fun p q => Serial.copyCell q p)
    (fun p q c hp hq hpq => copyCell_eq ⟨R, c⟩ p q hp hq hpq)
    (fun p q c hp hq hpq => by rw [copyCell_eq ⟨R, c⟩ q p hq hp hpq.symm, pairStep_swap _ hpq])
  have mv : ∀ (k : ℤ) (p : Idx n), moveBy d k p d = p d + k := fun k p => by
    rw [moveBy_apply, if_pos rfl]
  have c1 : ∀ p, ¬ (InBox B.size.lo B.size.hi p ∧ p d < B.size.lo d + B.delta) → c₁ p = c p := by
    intro p hp
    by_cases h : InBox B.size.lo B.size.hi p ∧ B.size.lo d + innerWidth B d ≤ p d ∧
        p d < B.size.lo d + B.delta + innerWidth B d
    · have hq : InBox B.size.lo B.size.hi (moveBy d (-innerWidth B d) p) :=
        inBox_moveBy h.1 (by have := h.1 d; omega)
      have := (h2 _ hq (by rw [mv]; omega)).2
      rw [show moveBy d (innerWidth B d) (moveBy d (-innerWidth B d) p) = p from by
        funext i; rw [moveBy_apply, moveBy_apply]; split <;> omega] at this
      exact this
    · exact h3 p (by tauto)
  have c2 : ∀ p, ¬ (InBox B.size.lo B.size.hi p ∧ B.size.lo d + B.delta + innerWidth B d ≤ p d) → c₂ p = c₁ p := by
    intro p hp
    by_cases h : InBox B.size.lo B.size.hi p ∧ B.size.lo d + B.delta ≤ p d ∧ p d < B.size.lo d + 2 * B.delta
    · exact (h4 p h.1 h.2.1 h.2.2).1
    · exact h5 p (by tauto)
  refine ⟨c₂, h1, ?_, ?_, ?_⟩
  · intro p hp hg
    rw [c2 p (by omega), (h2 p hp hg).1]
  · intro p hp hg
    have hpd := hp d
    have hq : InBox B.size.lo B.size.hi (moveBy d (-innerWidth B d) p) := inBox_moveBy hp (by omega)
    have := (h4 _ hq (by rw [mv]; omega) (by rw [mv]; omega)).2
    rw [show moveBy d (innerWidth B d) (moveBy d (-innerWidth B d) p) = p from by
        funext i; rw [moveBy_apply, moveBy_apply]; split <;> omega] at this
    rw [this]
    exact c1 _ (by rw [mv]; omega)
  · intro p hp
    rw [c2 p (fun h => hp ⟨h.1, Or.inr (by omega)⟩), c1 p (fun h => hp ⟨h.1, Or.inl h.2⟩)]

theorem sum_class [AddCommMonoid T] (L U N p : ℤ) (hp : L ≤ p ∧ p ≤ U) (hN : 1 ≤ N) (h1 : U - p < 2 * N)
    (h2 : p - L < 2 * N) (C : ℤ → T) :
    ∑ x ∈ (Finset.Icc L U).filter (fun x => N ∣ x - p), C x =
      C p + (if p + N ≤ U then C (p + N) else 0) + (if L ≤ p - N then C (p - N) else 0) := by
  have hset : (Finset.Icc L U).filter (fun x => N ∣ x - p) =
      (({p} : Finset ℤ) ∪ (if p + N ≤ U then {p + N} else ∅)) ∪ (if L ≤ p - N then {p - N} else ∅) := by
    ext x
    simp only [Finset.mem_filter, Finset.mem_Icc, Finset.mem_union, Finset.mem_singleton]
    constructor
    · rintro ⟨hx, t, ht⟩
      have ht1 : t < 2 := by by_contra hc; nlinarith
      have ht2 : -2 < t := by by_contra hc; nlinarith
      have : t = -1 ∨ t = 0 ∨ t = 1 := by omega
      rcases this with rfl | rfl | rfl
      · right; rw [if_pos (by omega)]; simp; omega
      · left; left; omega
      · left; right; rw [if_pos (by omega)]; simp; omega
    · rintro ((rfl | h) | h)
      · exact ⟨hp, by simp⟩
      · split at h
        · simp only [Finset.mem_singleton] at h; subst h; exact ⟨by omega, by simp⟩
        · simp at h
      · split at h
        · simp only [Finset.mem_singleton] at h; subst h; exact ⟨by omega, ⟨-1, by ring⟩⟩
        · simp at h
  rw [hset, Finset.sum_union, Finset.sum_union, Finset.sum_singleton]
  · congr 1
    · congr 1; split <;> simp
    · split <;> simp
  · split
    · simp; omega
    · simp
  · rw [Finset.disjoint_left]
    intro x hx hx'
    simp only [Finset.mem_union, Finset.mem_singleton] at hx
    split at hx'
    · simp only [Finset.mem_singleton] at hx'
      rcases hx with hx | hx
      · omega
      · split at hx
        · simp only [Finset.mem_singleton] at hx; omega
        · simp at hx
    · simp at hx'

/-- sums over the cells of the column through `p` along `d` -/
theorem accumulateDim_spec [AddCommMonoid T] {B : Boundary n} (hB : Wide B) (d : Fin n) (R : Range n) (hR : Covers R B)
    (c : Idx n → T) :
    ∃ c' : Idx n → T, (∀ out, Serial.AccumulateDim B d ⟨R, c⟩ out ↔ out = some ⟨R, c'⟩) ∧
      (∀ p, InBox B.size.lo B.size.hi p →
        (2 * B.delta ≤ innerWidth B d ∨ (B.size.lo d + B.delta ≤ p d ∧ p d ≤ B.size.hi d - B.delta)) →
        c' p = ∑ x ∈ (Finset.Icc (B.size.lo d) (B.size.hi d)).filter (fun x => innerWidth B d ∣ x - p d),
          c (update p d x)) ∧
      (∀ p, ¬ InBox B.size.lo B.size.hi p → c' p = c p) := by
  have hN : innerWidth B d = B.size.hi d - B.size.lo d + 1 - 2 * B.delta := by
    simp only [innerWidth, Boundary.innerDomain]; ring
  have hδ := hB.delta
  have hwd := hB.width d
  obtain ⟨c₁, c₂, h1, h2, h3, h4, h5⟩ := dim_spec (T := T) hB d R hR c (fun x y => (x + y, x + y))
    (fun x y => (y + x, y + x))
    (fun p q => Serial.addCell p q) (fun p q => Serial.addCell q p)
    (fun p q c hp hq hpq => addCell_eq ⟨R, c⟩ p q hp hq)
    (fun p q c hp hq hpq => by rw [addCell_eq ⟨R, c⟩ q p hq hp, pairStep_swap _ hpq])
  refine ⟨c₂, h1, ?_, ?_⟩
  · intro p hp hq
    have hpd := hp d
    rw [sum_class (B.size.lo d) (B.size.hi d) (innerWidth B d) (p d) hpd (by omega) (by omega) (by omega)
      (fun x => c (update p d x))]
    simp only [update_eq_self]
    have mv : ∀ (k : ℤ) (p : Idx n), moveBy d k p d = p d + k := fun k p => by
      rw [moveBy_apply, if_pos rfl]
    have eplus : update p d (p d + innerWidth B d) = moveBy d (innerWidth B d) p := rfl
    have eminus : update p d (p d - innerWidth B d) = moveBy d (-innerWidth B d) p := rfl
    have back : moveBy d (innerWidth B d) (moveBy d (-innerWidth B d) p) = p := by
      funext i; rw [moveBy_apply, moveBy_apply]; split <;> omega
    rw [eplus, eminus]
    -- value after the first loop
    have c1p : c₁ p = c p + (if p d < B.size.lo d + B.delta then c (moveBy d (innerWidth B d) p) else 0) +
        (if B.size.lo d + innerWidth B d ≤ p d ∧ p d < B.size.lo d + B.delta + innerWidth B d then
          c (moveBy d (-innerWidth B d) p) else 0) := by
      by_cases ha : p d < B.size.lo d + B.delta
      · rw [if_pos ha, if_neg (by omega), (h2 p hp ha).1, add_zero]
      · rw [if_neg ha]
        by_cases hb : B.size.lo d + innerWidth B d ≤ p d ∧ p d < B.size.lo d + B.delta + innerWidth B d
        · have := (h2 (moveBy d (-innerWidth B d) p) (inBox_moveBy hp (by omega)) (by rw [mv]; omega)).2
          rw [back] at this
          rw [if_pos hb, this]; simp only [add_zero]; exact add_comm _ _
        · rw [if_neg hb, h3 p (fun h => hb (by omega))]; simp
    by_cases ha : p d < B.size.lo d + B.delta
    · rw [h5 p (by omega), c1p, if_pos ha, if_neg (by omega), if_pos (by omega), if_neg (by omega)]
    · by_cases hh : B.size.lo d + B.delta + innerWidth B d ≤ p d
      · have hqb : InBox B.size.lo B.size.hi (moveBy d (-innerWidth B d) p) := inBox_moveBy hp (by omega)
        have := (h4 _ hqb (by rw [mv]; omega) (by rw [mv]; omega)).2
        rw [back] at this
        rw [this, c1p, if_neg ha, if_neg (by omega), if_neg (by omega), if_pos (by omega),
          h3 (moveBy d (-innerWidth B d) p) (by rw [mv]; omega)]
        simp
      · by_cases hs : p d < B.size.lo d + 2 * B.delta
        · have hqb : InBox B.size.lo B.size.hi (moveBy d (innerWidth B d) p) := inBox_moveBy hp (by omega)
          rw [(h4 p hp (by omega) hs).1, c1p, if_neg ha, h3 (moveBy d (innerWidth B d) p) (by rw [mv]; omega),
            if_pos (show p d + innerWidth B d ≤ B.size.hi d by omega)]
          by_cases hb : B.size.lo d ≤ p d - innerWidth B d
          · rw [if_pos (by omega), if_pos hb]; simp only [add_zero]; rw [← add_assoc, add_comm (c _) (c p)]
          · rw [if_neg (by omega), if_neg hb]; simp only [add_zero]; exact add_comm _ _
        · rw [h5 p (by omega), c1p, if_neg ha, if_neg (show ¬ p d + innerWidth B d ≤ B.size.hi d by omega)]
          by_cases hb : B.size.lo d ≤ p d - innerWidth B d
          · rw [if_pos (by omega), if_pos hb]
          · rw [if_neg (by omega), if_neg hb]
  · intro p hp
    rw [h5 p (fun h => hp h.1), h3 p (fun h => hp h.1)]

end Schnek.Lemma.Exchange
