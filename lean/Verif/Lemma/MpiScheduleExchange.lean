import Verif.Lemma.MpiSchedule
import Verif.Lemma.Mpi

/-!
# `exchange` and `accumulate` as instructions
-/

namespace Schnek.Lemma.MpiSchedule

open Schnek Schnek.Mpi Function

variable {n : ℕ} {T : Type}

theorem iterLoop_unique {r : Range n} {it : RangeIter n} {l l' : List (Idx n)} (h : r.IterLoop it l) (h' : r.IterLoop it l') :
    l = l' := by
  induction h generalizing l' with
  | done he =>
    cases h' with
    | done _ => rfl
    | step hne _ => exact (hne he).elim
  | step hne _ ih =>
    cases h' with
    | done he => exact (hne he).elim
    | step _ h2 => rw [ih h2]

theorem gather_unique {r : Range n} {g : GridMap n T} {size size' : ℤ} {b b' : List T} (h : Gather r g size b)
    (h' : Gather r g size' b') : b = b' := by
  obtain ⟨l, h1, h2, -⟩ := h
  obtain ⟨l', h1', h2', -⟩ := h'
  rw [iterLoop_unique h1 h1', h2'] at h2
  exact (Option.some.inj h2).symm

theorem scatter_unique {r : Range n} {g g₁ g₂ : GridMap n T} {b : List T} (h : Scatter r b g g₁) (h' : Scatter r b g g₂) : g₁ = g₂ := by
  obtain ⟨l, h1, -, h2⟩ := h
  obtain ⟨l', h1', -, h2'⟩ := h'
  rw [iterLoop_unique h1 h1', h2'] at h2
  exact (Option.some.inj h2).symm

theorem addScatter_unique [Add T] {r : Range n} {g g₁ g₂ : GridMap n T} {b b₁ b₂ : List T} (h : AddScatter r b g g₁ b₁)
    (h' : AddScatter r b g g₂ b₂) : g₁ = g₂ ∧ b₁ = b₂ := by
  obtain ⟨l, h1, -, h2⟩ := h
  obtain ⟨l', h1', -, h2'⟩ := h'
  rw [iterLoop_unique h1 h1', h2'] at h2
  have := Option.some.inj h2
  exact ⟨(congrArg Prod.fst this).symm, (congrArg Prod.snd this).symm⟩

theorem addCell_length [Add T] : ∀ (l : List (Idx n × T)) (s s' : GridMap n T × List T), l.foldlM addCell s = some s' →
    s'.2.length = s.2.length + l.length
  | [], s, s', h => by
    cases h
    rfl
  | a :: l, s, s', h => by
    rw [List.foldlM_cons] at h
    obtain ⟨s₁, h1, h2⟩ := Option.bind_eq_some_iff.mp h
    rw [addCell_length l s₁ s' h2]
    unfold addCell at h1
    obtain ⟨v, -, h3⟩ := Option.bind_eq_some_iff.mp h1
    obtain ⟨g, -, rfl⟩ := Option.map_eq_some_iff.mp h3
    simp
    omega

theorem addScatter_length [Add T] {r : Range n} {g g' : GridMap n T} {b back : List T} (h : AddScatter r b g g' back) :
    back.length = b.length := by
  obtain ⟨l, -, h1, h2⟩ := h
  have := addCell_length _ _ _ h2
  simp only [List.length_zip, List.length_nil] at this
  omega

variable {S : Setup n}

/-- the state of the grids -/
def grids (M : Coord S → Memory (GridMap n T) T) : World S T := fun c => (M c).grid

/-- half of an exchange, instruction by instruction -/
theorem half_together {d : Fin n} {src dst : Coord S → Range n} {dest source : Coord S → Coord S} {W' : World S T}
    (hs : ∀ c, source (dest c) = c) (M : Coord S → Memory (GridMap n T) T) (h : Half S d src dst dest source (grids M) W') :
    ∃ M', Together [fun c => gatherInstr S d c (src c), fun c => sendrecvInstr S d c (dest c) (source c), fun c => scatterInstr S (dst c)]
      M M' ∧ grids M' = W' := by
  obtain ⟨bufs, size, h1, h2, h3, h4⟩ := h
  refine ⟨fun c => ⟨W' c, bufs c, bufs (source c)⟩, ?_, rfl⟩
  refine .compute (W₁ := fun c => { M c with send := bufs c }) ?_ (.sendrecv (fun c => (h3 c).1) hs (fun c => ?_) (fun c => ?_)
    (.compute ?_ (.nil _)))
  · intro c m
    constructor
    · rintro ⟨size', buf, e1, e2, rfl⟩
      rw [gather_unique e2 (h2 c)]
    · rintro rfl
      exact ⟨size c, bufs c, h1 c, h2 c, rfl⟩
  · rw [h1]
    obtain ⟨l, -, -, hl⟩ := h2 c
    exact hl
  · show ((bufs (source c)).length : ℤ) ≤ _
    obtain ⟨l, -, -, hl⟩ := h2 (source c)
    rw [h1, Option.getD_some, ← (h3 c).2, ← hl]
  · intro c m
    constructor
    · rintro ⟨g, e1, rfl⟩
      rw [scatter_unique e1 (h4 c)]
    · rintro rfl
      exact ⟨W' c, h4 c, rfl⟩

/-- the instructions of `exchange(grid, dim)` -/
def exchangeDimRounds (S : Setup n) (d : Fin n) : List (Coord S → Instr (Coord S) (GridMap n T) T) :=
  [fun c => gatherInstr S d c ((bounds S c).ghostSourceDomain d .max), fun c => sendrecvInstr S d c (next S c d) (prev S c d),
    fun c => scatterInstr S ((bounds S c).ghostDomain d .min)] ++
  [fun c => gatherInstr S d c ((bounds S c).ghostSourceDomain d .min), fun c => sendrecvInstr S d c (prev S c d) (next S c d),
    fun c => scatterInstr S ((bounds S c).ghostDomain d .max)]

theorem exchangeDim_together {d : Fin n} {W' : World S T} (M : Coord S → Memory (GridMap n T) T) (h : ExchangeDim S d (grids M) W') :
    ∃ M', Together (exchangeDimRounds S d) M M' ∧ grids M' = W' := by
  obtain ⟨W₁, h1, h2⟩ := h
  obtain ⟨M₁, t1, rfl⟩ := half_together (fun c => Lemma.Mpi.prev_next S c d) M h1
  obtain ⟨M', t2, rfl⟩ := half_together (fun c => Lemma.Mpi.next_prev S c d) M₁ h2
  exact ⟨M', t1.append t2, rfl⟩

theorem overDims_together {step : Fin n → World S T → World S T → Prop} {rounds : Fin n → List (Coord S → Instr (Coord S) (GridMap n T) T)}
    (hstep : ∀ d W' (M : Coord S → Memory (GridMap n T) T), step d (grids M) W' → ∃ M', Together (rounds d) M M' ∧ grids M' = W') :
    ∀ (ds : List (Fin n)) (W' : World S T) (M : Coord S → Memory (GridMap n T) T), OverDims step ds (grids M) W' →
      ∃ M', Together (ds.flatMap rounds) M M' ∧ grids M' = W'
  | [], W', M, h => ⟨M, .nil _, h.symm⟩
  | d :: ds, W', M, h => by
    obtain ⟨W₁, h1, h2⟩ := h
    obtain ⟨M₁, t1, rfl⟩ := hstep d W₁ M h1
    obtain ⟨M', t2, h3⟩ := overDims_together hstep ds W' M₁ h2
    exact ⟨M', by rw [List.flatMap_cons]; exact t1.append t2, h3⟩

/-- the instructions of `exchange(grid)` -/
def exchangeRounds (S : Setup n) : List (Coord S → Instr (Coord S) (GridMap n T) T) := (List.finRange n).flatMap (exchangeDimRounds S)

theorem exchange_together {W' : World S T} (M : Coord S → Memory (GridMap n T) T) (h : Exchange S (grids M) W') :
    ∃ M', Together (exchangeRounds S) M M' ∧ grids M' = W' :=
  overDims_together (fun _ _ M h => exchangeDim_together M h) _ W' M h

theorem codeOf_flatMap {α : Type} (c : Coord S) (f : α → List (Coord S → Instr (Coord S) (GridMap n T) T))
    (g : α → List (Instr (Coord S) (GridMap n T) T)) (h : ∀ d, codeOf (f d) c = g d) (ds : List α) :
    codeOf (ds.flatMap f) c = ds.flatMap g := by
  induction ds with
  | nil => rfl
  | cons d ds ih =>
    have : codeOf (f d ++ ds.flatMap f) c = codeOf (f d) c ++ codeOf (ds.flatMap f) c := List.map_append ..
    rw [List.flatMap_cons, List.flatMap_cons, this, ih, h]

theorem codeOf_exchange (S : Setup n) : codeOf (exchangeRounds (T := T) S) = exchangeCode S :=
  funext fun c => codeOf_flatMap c _ _ (fun _ => rfl) _

/-- half of `accumulate`, instruction by instruction -/
theorem accHalf_together [Add T] {d : Fin n} {src dst : Coord S → Range n} {dest source : Coord S → Coord S} {W' : World S T}
    (M : Coord S → Memory (GridMap n T) T) (h : AccHalf S d src dst dest source (grids M) W') :
    ∃ M', Together [fun c => gatherInstr S d c (src c), fun c => sendrecvInstr S d c (dest c) (source c), fun c => addInstr S (dst c),
      fun c => sendrecvInstr S d c (source c) (dest c), fun c => scatterInstr S (src c)] M M' ∧ grids M' = W' := by
  obtain ⟨bufs, back, size, W₁, h1, h2, h3, h4, h5, h6⟩ := h
  refine ⟨fun c => ⟨W' c, back c, back (dest c)⟩, ?_, rfl⟩
  have hlen : ∀ c, ((bufs c).length : ℤ) = size c := fun c => by
    obtain ⟨l, -, -, hl⟩ := h2 c
    exact hl
  have hback : ∀ c, ((back c).length : ℤ) = size c := fun c => by
    rw [addScatter_length (h4 c), hlen, (h3 c).2]
  refine .compute (W₁ := fun c => { M c with send := bufs c }) ?_ (.sendrecv (fun c => (h3 c).1) (fun c => (h5 c).1) (fun c => ?_)
    (fun c => ?_) (.compute (W₁ := fun c => ⟨W₁ c, back c, bufs (source c)⟩) ?_ (.sendrecv (fun c => (h5 c).1) (fun c => (h3 c).1)
    (fun c => ?_) (fun c => ?_) (.compute ?_ (.nil _)))))
  · intro c m
    constructor
    · rintro ⟨size', buf, e1, e2, rfl⟩
      rw [gather_unique e2 (h2 c)]
    · rintro rfl
      exact ⟨size c, bufs c, h1 c, h2 c, rfl⟩
  · rw [h1]
    exact hlen c
  · show ((bufs (source c)).length : ℤ) ≤ _
    rw [h1, Option.getD_some, ← (h3 c).2, ← hlen]
  · intro c m
    constructor
    · rintro ⟨g, b, e1, rfl⟩
      obtain ⟨rfl, rfl⟩ := addScatter_unique e1 (h4 c)
      rfl
    · rintro rfl
      exact ⟨W₁ c, back c, h4 c, rfl⟩
  · rw [h1]
    exact hback c
  · show ((back (dest c)).length : ℤ) ≤ _
    rw [h1, Option.getD_some, ← (h5 c).2, ← hback]
  · intro c m
    constructor
    · rintro ⟨g, e1, rfl⟩
      rw [scatter_unique e1 (h6 c)]
    · rintro rfl
      exact ⟨W' c, h6 c, rfl⟩

/-- the instructions of `accumulate(grid, dim)` -/
def accumulateDimRounds [Add T] (S : Setup n) (d : Fin n) : List (Coord S → Instr (Coord S) (GridMap n T) T) :=
  [fun c => gatherInstr S d c ((bounds S c).ghostSourceDomain d .max), fun c => sendrecvInstr S d c (next S c d) (prev S c d),
    fun c => addInstr S ((bounds S c).ghostDomain d .min), fun c => sendrecvInstr S d c (prev S c d) (next S c d),
    fun c => scatterInstr S ((bounds S c).ghostSourceDomain d .max)] ++
  [fun c => gatherInstr S d c ((bounds S c).ghostSourceDomain d .min), fun c => sendrecvInstr S d c (prev S c d) (next S c d),
    fun c => addInstr S ((bounds S c).ghostDomain d .max), fun c => sendrecvInstr S d c (next S c d) (prev S c d),
    fun c => scatterInstr S ((bounds S c).ghostSourceDomain d .min)]

theorem accumulateDim_together [Add T] {d : Fin n} {W' : World S T} (M : Coord S → Memory (GridMap n T) T)
    (h : AccumulateDim S d (grids M) W') : ∃ M', Together (accumulateDimRounds S d) M M' ∧ grids M' = W' := by
  obtain ⟨W₁, h1, h2⟩ := h
  obtain ⟨M₁, t1, rfl⟩ := accHalf_together M h1
  obtain ⟨M', t2, rfl⟩ := accHalf_together M₁ h2
  exact ⟨M', t1.append t2, rfl⟩

/-- the instructions of `accumulate(grid)` -/
def accumulateRounds [Add T] (S : Setup n) : List (Coord S → Instr (Coord S) (GridMap n T) T) :=
  (List.finRange n).flatMap (accumulateDimRounds S)

theorem accumulate_together [Add T] {W' : World S T} (M : Coord S → Memory (GridMap n T) T) (h : Accumulate S (grids M) W') :
    ∃ M', Together (accumulateRounds S) M M' ∧ grids M' = W' :=
  overDims_together (fun _ _ M h => accumulateDim_together M h) _ W' M h

theorem codeOf_accumulate [Add T] (S : Setup n) : codeOf (accumulateRounds (T := T) S) = accumulateCode S :=
  funext fun c => codeOf_flatMap c _ _ (fun _ => rfl) _

end Schnek.Lemma.MpiSchedule
