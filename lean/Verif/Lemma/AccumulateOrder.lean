import Verif.Spec.SumOf
import Verif.Props.MpiAccumulate

/-!
# Helper lemmas for C124
-/

namespace Schnek.Lemma.AccumulateOrder

open Schnek Schnek.Spec Schnek.Lemma Schnek.Props Schnek.Mpi Schnek.Lemma.Exchange Schnek.Lemma.Mpi Schnek.Lemma.MpiAccumulate Function

variable {n : ℕ} {T U : Type}

/-- apply a function to all cells -/
def gmap (f : U → T) (g : GridMap n U) : GridMap n T := ⟨g.range, fun p => f (g.cell p)⟩

theorem gmap_read (f : U → T) (g : GridMap n U) (p : Idx n) : (gmap f g).read p = (g.read p).map f := by
  unfold GridMap.read gmap
  by_cases h : g.range.inside p <;> simp [h]

theorem gmap_write (f : U → T) (g : GridMap n U) (p : Idx n) (v : U) : (gmap f g).write p (f v) = (g.write p v).map (gmap f) := by
  unfold GridMap.write gmap
  by_cases h : g.range.inside p
  · simp only [h, if_true, Option.map_some, Option.some.injEq, GridMap.mk.injEq, true_and]
    funext q
    by_cases hq : q = p
    · subst hq; simp
    · simp [hq]
  · simp [h]

/-! ## serial -/

theorem parLoop_map {σ τ : Type} {r₁ r₂ : Range n} {body : Idx n → Idx n → σ → Option σ} {body' : Idx n → Idx n → τ → Option τ} (φ : σ → τ)
    (hb : ∀ a b s, body' a b (φ s) = (body a b s).map φ) {it₁ it₂ : RangeIter n} {s : σ} {out : Option σ}
    (h : ParLoop r₁ r₂ body it₁ it₂ s out) : ParLoop r₁ r₂ body' it₁ it₂ (φ s) (out.map φ) := by
  induction h with
  | done h => exact .done h
  | fault h1 h2 => exact .fault h1 (by rw [hb, h2]; rfl)
  | step h1 h2 _ ih => exact .step h1 (by rw [hb, h2]; rfl) ih

theorem addCell_map [Add T] [Add U] (f : U → T) (hf : ∀ a b, f (a + b) = f a + f b) (a b : Idx n) (g : GridMap n U) :
    Serial.addCell a b (gmap f g) = (Serial.addCell a b g).map (gmap f) := by
  unfold Serial.addCell Serial.copyCell
  rw [gmap_read, gmap_read]
  cases g.read b with
  | none => rfl
  | some y =>
    cases g.read a with
    | none => rfl
    | some x =>
      simp only [Option.map_some, Option.bind_some]
      rw [← hf, gmap_write]
      cases g.write a (x + y) with
      | none => rfl
      | some g' =>
        simp only [Option.map_some, Option.bind_some]
        rw [gmap_read]
        cases g'.read a with
        | none => rfl
        | some v => simp only [Option.map_some, Option.bind_some]; rw [gmap_write]

theorem accDim_map [Add T] [Add U] (f : U → T) (hf : ∀ a b, f (a + b) = f a + f b) (B : Boundary n) (d : Fin n) (g : GridMap n U)
    (out : Option (GridMap n U)) (h : Serial.AccumulateDim B d g out) : Serial.AccumulateDim B d (gmap f g) (out.map (gmap f)) := by
  obtain ⟨mid, h1, h2⟩ := h
  refine ⟨mid.map (gmap f), parLoop_map (gmap f) (fun a b s => addCell_map f hf a b s) h1, ?_⟩
  cases mid with
  | none => simp only at h2; subst h2; rfl
  | some g₁ => exact parLoop_map (gmap f) (fun a b s => addCell_map f hf b a s) h2

theorem overDims_map (f : U → T) (step : Fin n → GridMap n U → Option (GridMap n U) → Prop)
    (step' : Fin n → GridMap n T → Option (GridMap n T) → Prop)
    (hs : ∀ d g out, step d g out → step' d (gmap f g) (out.map (gmap f))) : ∀ (ds : List (Fin n)) (g : GridMap n U) (out : Option (GridMap n U)),
    Serial.OverDims step ds g out → Serial.OverDims step' ds (gmap f g) (out.map (gmap f))
  | [], g, out, h => by simp only [Serial.OverDims] at h ⊢; subst h; rfl
  | d :: ds, g, out, h => by
    obtain ⟨mid, h1, h2⟩ := h
    refine ⟨mid.map (gmap f), hs d g mid h1, ?_⟩
    cases mid with
    | none => simp only at h2; subst h2; rfl
    | some g₁ => exact overDims_map f step step' hs ds g₁ out h2

theorem acc_map [Add T] [Add U] (f : U → T) (hf : ∀ a b, f (a + b) = f a + f b) (B : Boundary n) (g : GridMap n U)
    (out : Option (GridMap n U)) (h : Serial.Accumulate B g out) : Serial.Accumulate B (gmap f g) (out.map (gmap f)) :=
  overDims_map f _ _ (fun d g out => accDim_map f hf B d g out) _ g out h

/-- cells which differ by a period in dimension `e` hold the same value -/
def Agree (B : Boundary n) (e : Fin n) (c : Idx n → T) : Prop :=
  ∀ p x, InBox B.size.lo B.size.hi p → B.size.lo e ≤ x → x ≤ B.size.hi e → innerWidth B e ∣ x - p e → c p = c (update p e x)

/-- what one dimension of `accumulate` does, without any law for `+` -/
theorem accDim_plain [Add T] {B : Boundary n} (hB : Wide B) (d : Fin n) (R : Range n) (hR : Covers R B) (c : Idx n → T) :
    ∃ c' : Idx n → T, (∀ out, Serial.AccumulateDim B d ⟨R, c⟩ out ↔ out = some ⟨R, c'⟩) ∧
      (∀ p, ¬ InBox B.size.lo B.size.hi p → c' p = c p) ∧
      (2 * B.delta ≤ innerWidth B d → Agree B d c' ∧ ∀ e, e ≠ d → Agree B e c → Agree B e c') := by
  have hN : innerWidth B d = B.size.hi d - B.size.lo d + 1 - 2 * B.delta := by
    simp only [innerWidth, Boundary.innerDomain]; ring
  have hδ := hB.delta
  have hwd := hB.width d
  obtain ⟨c₁, c₂, h1, h2, h3, h4, h5⟩ := dim_spec (T := T) hB d R hR c (fun x y => (x + y, x + y))
    (fun x y => (y + x, y + x))
    (fun p q => Serial.addCell p q) (fun p q => Serial.addCell q p)
    (fun p q c hp hq hpq => addCell_eq ⟨R, c⟩ p q hp hq)
    (fun p q c hp hq hpq => by rw [addCell_eq ⟨R, c⟩ q p hq hp, pairStep_swap _ hpq])
  refine ⟨c₂, h1, fun p hp => by rw [h5 p (fun h => hp h.1), h3 p (fun h => hp h.1)], fun hw => ?_⟩
  have mv : ∀ (k : ℤ) (p : Idx n), moveBy d k p d = p d + k := fun k p => by
    rw [moveBy_apply, if_pos rfl]
  have back : ∀ p, moveBy d (innerWidth B d) (moveBy d (-innerWidth B d) p) = p := fun p => by
    funext i; rw [moveBy_apply, moveBy_apply]; split <;> omega
  -- the values in the end
  have lo : ∀ p, InBox B.size.lo B.size.hi p → p d < B.size.lo d + B.delta →
      c₂ p = c p + c (moveBy d (innerWidth B d) p) ∧
      c₂ (moveBy d (innerWidth B d) p) = c p + c (moveBy d (innerWidth B d) p) := by
    intro p hp hl
    have hpd := hp d
    rw [h5 p (by omega), h5 (moveBy d (innerWidth B d) p) (by rw [mv]; omega)]
    exact h2 p hp hl
  have hi : ∀ p, InBox B.size.lo B.size.hi p → B.size.lo d + B.delta ≤ p d → p d < B.size.lo d + 2 * B.delta →
      c₂ p = c (moveBy d (innerWidth B d) p) + c p ∧
      c₂ (moveBy d (innerWidth B d) p) = c (moveBy d (innerWidth B d) p) + c p := by
    intro p hp hl hh
    have hpd := hp d
    have e1 := h3 p (by omega)
    have e2 := h3 (moveBy d (innerWidth B d) p) (by rw [mv]; omega)
    have := h4 p hp hl hh
    rw [e1, e2] at this
    exact this
  have mid : ∀ p, B.size.lo d + 2 * B.delta ≤ p d → p d < B.size.lo d + innerWidth B d → c₂ p = c p := by
    intro p hl hh
    rw [h5 p (by omega), h3 p (by omega)]
  constructor
  · -- copies along `d`
    intro p x hp hx1 hx2 hdvd
    have hpd := hp d
    have plus : ∀ q, InBox B.size.lo B.size.hi q → q d + innerWidth B d ≤ B.size.hi d →
        c₂ q = c₂ (moveBy d (innerWidth B d) q) := by
      intro q hq hqd
      have hqd' := hq d
      by_cases hl : q d < B.size.lo d + B.delta
      · rw [(lo q hq hl).1, (lo q hq hl).2]
      · rw [(hi q hq (by omega) (by omega)).1, (hi q hq (by omega) (by omega)).2]
    obtain ⟨t, ht⟩ := hdvd
    have ht' : t = 0 ∨ t = 1 ∨ t = -1 := by
      by_contra hc
      rcases (by omega : 2 ≤ t ∨ t ≤ -2) with h | h
      · nlinarith
      · nlinarith
    rcases ht' with rfl | rfl | rfl
    · rw [show x = p d by linarith, update_eq_self]
    · rw [plus p hp (by omega), show x = p d + innerWidth B d by linarith]; rfl
    · have hq : InBox B.size.lo B.size.hi (moveBy d (-innerWidth B d) p) := inBox_moveBy hp (by omega)
      have := plus _ hq (by rw [mv]; omega)
      rw [back] at this
      rw [← this, show x = p d + -innerWidth B d by linarith]; rfl
  · -- copies along another dimension
    intro e he hA p x hp hx1 hx2 hdvd
    have hpd := hp d
    have comm : ∀ k, moveBy d k (update p e x) = update (moveBy d k p) e x := fun k => by
      simp only [moveBy]
      rw [update_of_ne (Ne.symm he), update_comm he]
    have hq : InBox B.size.lo B.size.hi (update p e x) := fun i => by
      by_cases hi : i = e
      · subst hi; rw [update_self]; exact ⟨hx1, hx2⟩
      · rw [update_of_ne hi]; exact hp i
    have hqd : update p e x d = p d := update_of_ne (Ne.symm he) _ _
    have mvA : ∀ k, B.size.lo d ≤ p d + k → p d + k ≤ B.size.hi d → c (moveBy d k p) = c (moveBy d k (update p e x)) := fun k h1 h2 => by
      rw [comm]
      refine hA _ x (inBox_moveBy hp ⟨h1, h2⟩) hx1 hx2 ?_
      rw [moveBy_apply, if_neg he]
      exact hdvd
    have self := hA p x hp hx1 hx2 hdvd
    by_cases a1 : p d < B.size.lo d + B.delta
    · rw [(lo p hp a1).1, (lo _ hq (by rw [hqd]; exact a1)).1, self, mvA _ (by omega) (by omega)]
    by_cases a2 : p d < B.size.lo d + 2 * B.delta
    · rw [(hi p hp (by omega) a2).1, (hi _ hq (by rw [hqd]; omega) (by rw [hqd]; exact a2)).1, self, mvA _ (by omega) (by omega)]
    by_cases a3 : p d < B.size.lo d + innerWidth B d
    · rw [mid p (by omega) a3, mid _ (by rw [hqd]; omega) (by rw [hqd]; exact a3)]; exact self
    have hp' : InBox B.size.lo B.size.hi (moveBy d (-innerWidth B d) p) := inBox_moveBy hp (by omega)
    have hq' : InBox B.size.lo B.size.hi (moveBy d (-innerWidth B d) (update p e x)) := inBox_moveBy hq (by rw [hqd]; omega)
    have m := mvA (-innerWidth B d) (by omega) (by omega)
    by_cases a4 : p d < B.size.lo d + innerWidth B d + B.delta
    · have e1 := (lo _ hp' (by rw [mv]; omega)).2
      have e2 := (lo _ hq' (by rw [mv, hqd]; omega)).2
      rw [back] at e1 e2
      rw [e1, e2, m, self]
    · have e1 := (hi _ hp' (by rw [mv]; omega) (by rw [mv]; omega)).2
      have e2 := (hi _ hq' (by rw [mv, hqd]; omega) (by rw [mv, hqd]; omega)).2
      rw [back] at e1 e2
      rw [e1, e2, m, self]

/-! ## MPI -/

theorem mapM_read_map (f : U → T) (g : GridMap n U) : ∀ l : List (Idx n), l.mapM (gmap f g).read = (l.mapM g.read).map (List.map f)
  | [] => rfl
  | p :: l => by
    rw [List.mapM_cons, List.mapM_cons, gmap_read, mapM_read_map f g l]
    cases g.read p with
    | none => rfl
    | some v =>
      cases l.mapM g.read with
      | none => rfl
      | some vs => rfl

theorem gather_map (f : U → T) {r : Range n} {g : GridMap n U} {size : ℤ} {buf : List U} (h : Gather r g size buf) :
    Gather r (gmap f g) size (buf.map f) := by
  obtain ⟨l, h1, h2, h3⟩ := h
  exact ⟨l, h1, by rw [mapM_read_map, h2]; rfl, by rw [List.length_map]; exact h3⟩

theorem foldlM_write_map (f : U → T) : ∀ (l : List (Idx n × U)) (g : GridMap n U),
    (l.map fun pv => (pv.1, f pv.2)).foldlM (fun (g : GridMap n T) (pv : Idx n × T) => g.write pv.1 pv.2) (gmap f g) =
      (l.foldlM (fun (g : GridMap n U) (pv : Idx n × U) => g.write pv.1 pv.2) g).map (gmap f)
  | [], g => rfl
  | pv :: l, g => by
    rw [List.map_cons, List.foldlM_cons, List.foldlM_cons, gmap_write]
    cases g.write pv.1 pv.2 with
    | none => rfl
    | some g' => exact foldlM_write_map f l g'

theorem zip_map (f : U → T) : ∀ (l : List (Idx n)) (buf : List U), l.zip (buf.map f) = (l.zip buf).map fun pv => (pv.1, f pv.2)
  | [], _ => rfl
  | _ :: _, [] => rfl
  | p :: l, v :: buf => by
    rw [List.map_cons, List.zip_cons_cons, List.zip_cons_cons, List.map_cons, zip_map f l buf]

theorem scatter_map (f : U → T) {r : Range n} {g g' : GridMap n U} {buf : List U} (h : Scatter r buf g g') :
    Scatter r (buf.map f) (gmap f g) (gmap f g') := by
  obtain ⟨l, h1, h2, h3⟩ := h
  refine ⟨l, h1, by rw [List.length_map]; exact h2, ?_⟩
  rw [zip_map, foldlM_write_map, h3]
  rfl

theorem mpi_addCell_map [Add T] [Add U] (f : U → T) (hf : ∀ a b, f (a + b) = f a + f b) (g : GridMap n U) (back : List U) (pv : Idx n × U) :
    Mpi.addCell (gmap f g, back.map f) (pv.1, f pv.2) = (Mpi.addCell (g, back) pv).map fun s => (gmap f s.1, s.2.map f) := by
  unfold Mpi.addCell
  simp only
  rw [gmap_read]
  cases g.read pv.1 with
  | none => rfl
  | some v =>
    simp only [Option.map_some, Option.bind_some]
    rw [← hf, gmap_write]
    cases g.write pv.1 (v + pv.2) with
    | none => rfl
    | some g' => simp

theorem foldlM_addCell_map [Add T] [Add U] (f : U → T) (hf : ∀ a b, f (a + b) = f a + f b) :
    ∀ (l : List (Idx n × U)) (g : GridMap n U) (back : List U),
    (l.map fun pv => (pv.1, f pv.2)).foldlM Mpi.addCell (gmap f g, back.map f) =
      (l.foldlM Mpi.addCell (g, back)).map fun s => (gmap f s.1, s.2.map f)
  | [], g, back => rfl
  | pv :: l, g, back => by
    rw [List.map_cons, List.foldlM_cons, List.foldlM_cons, mpi_addCell_map f hf]
    cases Mpi.addCell (g, back) pv with
    | none => rfl
    | some s => exact foldlM_addCell_map f hf l s.1 s.2

theorem addScatter_map [Add T] [Add U] (f : U → T) (hf : ∀ a b, f (a + b) = f a + f b) {r : Range n} {g g' : GridMap n U}
    {buf back : List U} (h : AddScatter r buf g g' back) : AddScatter r (buf.map f) (gmap f g) (gmap f g') (back.map f) := by
  obtain ⟨l, h1, h2, h3⟩ := h
  refine ⟨l, h1, by rw [List.length_map]; exact h2, ?_⟩
  have := foldlM_addCell_map f hf (l.zip buf) g []
  rw [h3] at this
  rw [zip_map]
  exact this

/-- apply a function to all cells of all processes -/
def wmap {S : Setup n} (f : U → T) (W : World S U) : World S T := fun c => gmap f (W c)

theorem accHalf_map [Add T] [Add U] (f : U → T) (hf : ∀ a b, f (a + b) = f a + f b) {S : Setup n} {d : Fin n}
    {src dst : Coord S → Range n} {dest source : Coord S → Coord S} {W W' : World S U} (h : AccHalf S d src dst dest source W W') :
    AccHalf S d src dst dest source (wmap f W) (wmap f W') := by
  obtain ⟨bufs, back, size, W₁, h1, h2, h3, h4, h5, h6⟩ := h
  exact ⟨fun c => (bufs c).map f, fun c => (back c).map f, size, wmap f W₁, h1, fun c => gather_map f (h2 c), h3,
    fun c => addScatter_map f hf (h4 c), h5, fun c => scatter_map f (h6 c)⟩

theorem mpi_acc_map [Add T] [Add U] (f : U → T) (hf : ∀ a b, f (a + b) = f a + f b) {S : Setup n} {W W' : World S U}
    (h : Mpi.Accumulate S W W') : Mpi.Accumulate S (wmap f W) (wmap f W') := by
  have : ∀ (ds : List (Fin n)) (W : World S U), Mpi.OverDims (Mpi.AccumulateDim S) ds W W' →
      Mpi.OverDims (Mpi.AccumulateDim S) ds (wmap f W) (wmap f W') := by
    intro ds
    induction ds with
    | nil => intro W h; simp only [Mpi.OverDims] at h ⊢; subst h; rfl
    | cons d ds ih =>
      rintro W ⟨W₁, ⟨W₂, a, b⟩, h2⟩
      exact ⟨wmap f W₁, ⟨wmap f W₂, accHalf_map f hf a, accHalf_map f hf b⟩, ih W₁ h2⟩
  exact this _ W h

variable {S : Setup n}

/-- all copies of a cell in processes which differ in dimension `e` hold the same value -/
def UAgree (hD : ∀ i, 0 < S.dims i) (e : Fin n) (W : World S T) : Prop :=
  ∀ m p x, UBox S m p → UBox S (update m e x) p → val hD W m p = val hD W (update m e x) p

theorem mpi_accDim_agree [Add T] (hS : Good S) (hD : ∀ i, 0 < S.dims i) (d : Fin n) (W : World S T)
    (hcov : ∀ c, ∀ p, InBox (bounds S c).size.lo (bounds S c).size.hi p → (W c).range.inside p = true) :
    ∃ W' : World S T, (∀ W'', Mpi.AccumulateDim S d W W'' ↔ W'' = W') ∧ (∀ c, (W' c).range = (W c).range) ∧
      (∀ c p, ¬ InBox (bounds S c).size.lo (bounds S c).size.hi p → (W' c).cell p = (W c).cell p) ∧
      ((∀ x, ust S d x + 2 * S.delta ≤ ust S d (x + 1)) → UAgree hD d W' ∧ ∀ e, e ≠ d → UAgree hD e W → UAgree hD e W') := by
  have hδ := hS.delta
  obtain ⟨W₁, W', u, r, A1, A3, B1, B3, o⟩ := accumulateDim_facts hS hD d W hcov
  refine ⟨W', u, r, o, fun hw => ?_⟩
  have wm : ∀ m : Fin n → ℤ, ust S d (m d - 1) + 2 * S.delta ≤ ust S d (m d) := fun m => by
    have := hw (m d - 1)
    rwa [sub_add_cancel] at this
  have lo : ∀ m p, UBox S m p → p d < ust S d (m d) →
      val hD W' m p = val hD W m p + val hD W (update m d (m d - 1)) p ∧
      val hD W' (update m d (m d - 1)) p = val hD W m p + val hD W (update m d (m d - 1)) p := by
    intro m p hb hl
    have hbd := hb d
    have s0 := hw (m d)
    have sm := wm m
    have hb' : UBox S (update m d (m d - 1)) p := ubox_update m p _ hb (by omega) (by rw [sub_add_cancel]; omega)
    rw [B3 m p hb (by omega) (by omega), B3 _ p hb' (by rw [update_self, sub_add_cancel]; exact hl) (by rw [update_self]; omega)]
    exact A1 m p hb hl
  have hi : ∀ m p, UBox S m p → ust S d (m d + 1) ≤ p d →
      val hD W' m p = val hD W m p + val hD W (update m d (m d + 1)) p ∧
      val hD W' (update m d (m d + 1)) p = val hD W m p + val hD W (update m d (m d + 1)) p := by
    intro m p hb hl
    have hbd := hb d
    have s0 := hw (m d)
    have s1 := hw (m d + 1)
    have hb' : UBox S (update m d (m d + 1)) p := ubox_update m p _ hb (by omega) (by omega)
    have e1 := A3 m p hb (by omega) (by omega)
    have e2 := A3 _ p hb' (by rw [update_self]; exact hl) (by rw [update_self]; omega)
    have := B1 m p hb hl
    rw [e1, e2] at this
    exact this
  have mid : ∀ m p, UBox S m p → ust S d (m d) + S.delta ≤ p d → p d < ust S d (m d + 1) - S.delta → val hD W' m p = val hD W m p := by
    intro m p hb h1 h2
    rw [B3 m p hb (by omega) (by omega), A3 m p hb (by omega) (by omega)]
  constructor
  · have plus : ∀ m p, UBox S m p → UBox S (update m d (m d + 1)) p → val hD W' m p = val hD W' (update m d (m d + 1)) p := by
      intro m p hb hb'
      by_cases hl : p d < ust S d (m d + 1)
      · have := lo _ p hb' (by rw [update_self]; exact hl)
        rw [update_self, update_idem, add_sub_cancel_right, update_eq_self] at this
        rw [this.1, this.2]
      · rw [(hi m p hb (by omega)).1, (hi m p hb (by omega)).2]
    intro m p x hb hb'
    have hbd := hb d
    have hbd' := hb' d
    rw [update_self] at hbd'
    have hx : x = m d ∨ x = m d + 1 ∨ x = m d - 1 := by
      by_contra hc
      rcases (by omega : x + 1 + 1 ≤ m d ∨ m d + 1 + 1 ≤ x) with h | h
      · have a := ust_mono hS hD d h
        have b := hw (x + 1)
        omega
      · have a := ust_mono hS hD d h
        have b := hw (m d + 1)
        omega
    rcases hx with rfl | rfl | rfl
    · rw [update_eq_self]
    · exact plus m p hb hb'
    · have := plus _ p hb' (by rw [update_self, update_idem, sub_add_cancel, update_eq_self]; exact hb)
      rw [update_self, update_idem, sub_add_cancel, update_eq_self] at this
      exact this.symm
  · intro e he hA m p x hb hb'
    have hbd := hb d
    have s0 := hw (m d)
    have sm := wm m
    have s1 := hw (m d + 1)
    have hmd : update m e x d = m d := update_of_ne (Ne.symm he) _ _
    have mvA : ∀ y, ust S d y - S.delta ≤ p d → p d < ust S d (y + 1) + S.delta →
        val hD W (update m d y) p = val hD W (update (update m e x) d y) p := fun y h1 h2 => by
      rw [update_comm he]
      refine hA _ p x (ubox_update m p y hb h1 h2) ?_
      rw [← update_comm he]
      exact ubox_update _ p y hb' h1 h2
    have self := hA m p x hb hb'
    by_cases a1 : p d < ust S d (m d)
    · rw [(lo m p hb a1).1, (lo _ p hb' (by rw [hmd]; exact a1)).1, self, hmd, mvA _ (by omega) (by rw [sub_add_cancel]; omega)]
    by_cases a4 : ust S d (m d + 1) ≤ p d
    · rw [(hi m p hb a4).1, (hi _ p hb' (by rw [hmd]; exact a4)).1, self, hmd, mvA _ (by omega) (by omega)]
    by_cases a2 : p d < ust S d (m d) + S.delta
    · have c1 := ubox_update (d := d) m p (m d - 1) hb (by omega) (by rw [sub_add_cancel]; omega)
      have c2 := ubox_update (d := d) _ p (m d - 1) hb' (by omega) (by rw [sub_add_cancel]; omega)
      have e1 := (hi _ p c1 (by rw [update_self, sub_add_cancel]; omega)).2
      have e2 := (hi _ p c2 (by rw [update_self, sub_add_cancel]; omega)).2
      rw [update_self, update_idem, sub_add_cancel, update_eq_self] at e1
      rw [update_self, update_idem, sub_add_cancel, show m d = update m e x d from hmd.symm, update_eq_self, hmd] at e2
      rw [e1, e2, self, mvA _ (by omega) (by rw [sub_add_cancel]; omega)]
    by_cases a3 : p d < ust S d (m d + 1) - S.delta
    · rw [mid m p hb (by omega) a3, mid _ p hb' (by rw [hmd]; omega) (by rw [hmd]; exact a3)]; exact self
    have c1 := ubox_update (d := d) m p (m d + 1) hb (by omega) (by omega)
    have c2 := ubox_update (d := d) _ p (m d + 1) hb' (by omega) (by omega)
    have e1 := (lo _ p c1 (by rw [update_self]; omega)).2
    have e2 := (lo _ p c2 (by rw [update_self]; omega)).2
    rw [update_self, update_idem, add_sub_cancel_right, update_eq_self] at e1
    rw [update_self, update_idem, add_sub_cancel_right, show m d = update m e x d from hmd.symm, update_eq_self, hmd] at e2
    rw [e1, e2, self, mvA _ (by omega) (by omega)]

end Schnek.Lemma.AccumulateOrder
