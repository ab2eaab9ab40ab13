import Verif.Lemma.LemonSound

/-!
# Runs of the parser with related actions
-/

namespace Schnek.Lemma.Lemon

open Schnek.Lemon Schnek.Spec
open Scanner (Kind)

variable {V V' S S' : Type}

/-- replace the values on the stack and the state -/
def mapEntry (f : V' → V) (e : Entry V') : Entry V := ⟨e.state, e.major, f e.minor⟩

def mapConf (f : V' → V) (g : S' → S) (c : Conf V' S') : Conf V S :=
  ⟨c.stack.map (mapEntry f), c.input.map fun t => (t.1, f t.2), g c.state⟩

def mapOut (f : V' → V) (g : S' → S) : Outcome V' S' → Outcome V S
  | .running c => .running (mapConf f g c)
  | .done s => .done (g s)
  | .syntaxError n s => .syntaxError n (g s)
  | .thrown s => .thrown (g s)
  | .undef => .undef

/-- the actions do the same -/
def Projects (f : V' → V) (g : S' → S) (act : Actions V S) (act' : Actions V' S') : Prop :=
  ∀ r vs s, act r (vs.map f) (g s) = ((act' r vs s).1.map f, g (act' r vs s).2)

theorem shift_map (f : V' → V) (D : ℕ) (l : List (Entry V')) (e : Entry V') :
    shift D (l.map (mapEntry f)) (mapEntry f e) = (shift D l e).map (mapEntry f) := by
  unfold shift
  rw [List.length_map]
  split <;> rfl

theorem reduce_map {f : V' → V} {g : S' → S} {act : Actions V S} {act' : Actions V' S'} (h : Projects f g act act') (D : ℕ)
    (stack : List (Entry V')) (input : List (ℕ × V')) (s : S') (rule : ℕ) :
    reduce act D (stack.map (mapEntry f)) (input.map fun t => (t.1, f t.2)) (g s) rule = mapOut f g (reduce act' D stack input s rule) := by
  unfold reduce
  rcases yyRuleInfo[rule]? with _ | ⟨l, size⟩
  · rfl
  simp only
  rw [← List.map_drop]
  rcases stack.drop size with _ | ⟨top, below⟩
  · rfl
  simp only [List.map_cons]
  have hv : ((stack.map (mapEntry f)).take size).reverse.map Entry.minor = ((stack.take size).reverse.map Entry.minor).map f := by
    rw [← List.map_take, ← List.map_reverse, List.map_map, List.map_map]
    rfl
  rw [hv, h]
  rcases act' rule ((stack.take size).reverse.map Entry.minor) s with ⟨_ | v, s'⟩
  · rfl
  simp only [Option.map_some]
  have hsh := shift_map f D (top :: below) ⟨findReduce top.state l, l, v⟩
  show (if findReduce top.state l < nState then
      match shift D (mapEntry f top :: below.map (mapEntry f)) (mapEntry f ⟨findReduce top.state l, l, v⟩) with
      | [] => Outcome.running ⟨[], (input.map fun t : ℕ × V' => (t.1, f t.2)).tail, g s'⟩
      | e :: l => .running ⟨e :: l, input.map fun t : ℕ × V' => (t.1, f t.2), g s'⟩
    else if findReduce top.state l = acceptAction then .running ⟨[], (input.map fun t : ℕ × V' => (t.1, f t.2)).tail, g s'⟩ else .undef) = _
  rw [List.map_cons] at hsh
  rw [hsh]
  split
  · rcases shift D (top :: below) ⟨findReduce top.state l, l, v⟩ with _ | ⟨e, m⟩
    · simp [mapOut, mapConf]
    · rfl
  · split
    · simp [mapOut, mapConf]
    · rfl

theorem tick_map {f : V' → V} {g : S' → S} {act : Actions V S} {act' : Actions V' S'} (h : Projects f g act act') (D : ℕ) (v0 : V')
    (c : Conf V' S') : tick act D (f v0) (mapConf f g c) = mapOut f g (tick act' D v0 c) := by
  obtain ⟨stack, input, s⟩ := c
  unfold tick
  cases input with
  | nil => rfl
  | cons t rest =>
    obtain ⟨look, v⟩ := t
    simp only [mapConf, List.map_cons]
    have htop : (stack.map (mapEntry f)).headD ⟨0, 0, f v0⟩ = mapEntry f (stack.headD ⟨0, 0, v0⟩) := by cases stack <;> rfl
    have hst : mapEntry f (stack.headD ⟨0, 0, v0⟩) :: (stack.map (mapEntry f)).tail = (stack.headD ⟨0, 0, v0⟩ :: stack.tail).map (mapEntry f) := by
      cases stack <;> rfl
    rw [htop, hst]
    have hs : (mapEntry f (stack.headD ⟨0, 0, v0⟩)).state = (stack.headD ⟨0, 0, v0⟩).state := rfl
    rw [hs]
    split
    · split
      · rfl
      · have := shift_map f D (stack.headD ⟨0, 0, v0⟩ :: stack.tail) ⟨findShift (stack.headD ⟨0, 0, v0⟩).state look, look, v⟩
        simp only [mapOut, mapConf, Outcome.running.injEq]
        rw [← this]
        rfl
    · split
      · exact reduce_map h D _ ((look, v) :: rest) s _
      · split
        · simp [mapOut]
        · rfl

theorem run_map {f : V' → V} {g : S' → S} {act : Actions V S} {act' : Actions V' S'} (h : Projects f g act act') (D : ℕ) (v0 : V')
    (n : ℕ) (c : Conf V' S') : run act D (f v0) n (mapConf f g c) = mapOut f g (run act' D v0 n c) := by
  induction n generalizing c with
  | zero => rfl
  | succ n ih =>
    unfold run
    rw [tick_map h]
    rcases tick act' D v0 c with c' | s | ⟨m, s⟩ | s | _
    · exact ih c'
    all_goals rfl

/-- The parser does the same with actions that do the same. -/
theorem returns_map {f : V' → V} {g : S' → S} {act : Actions V S} {act' : Actions V' S'} (h : Projects f g act act') {D : ℕ} {v0 : V'}
    {tokens : List (Kind × V')} {s : S'} {o : Outcome V' S'} (ho : Returns act' D v0 tokens s o) :
    Returns act D (f v0) (tokens.map fun t => (t.1, f t.2)) (g s) (mapOut f g o) := by
  obtain ⟨h1, n, hn⟩ := ho
  refine ⟨?_, n, ?_⟩
  · intro c hc
    cases o with
    | running c' => exact h1 c' rfl
    | _ => cases hc
  · have hs : start (f v0) (tokens.map fun t => (t.1, f t.2)) (g s) = mapConf f g (start v0 tokens s) := by
      simp [start, mapConf]
    rw [hs, run_map h, hn]

/-! ## what holds of the state in the end -/

def outState : Outcome V S → Option S
  | .running c => some c.state
  | .done s | .syntaxError _ s | .thrown s => some s
  | .undef => none

theorem tick_inv {act : Actions V S} {I : S → Prop} (h : ∀ r < 48, ∀ vs s, I s → I (act r vs s).2) (D : ℕ) (v0 : V) (c : Conf V S)
    (hc : I c.state) : ∀ s, outState (tick act D v0 c) = some s → I s := by
  intro s hs
  unfold tick at hs
  split at hs
  · cases hs
    exact hc
  · simp only at hs
    split at hs
    · split at hs
      · cases hs
      · cases hs
        exact hc
    · split at hs
      · unfold reduce at hs
        split at hs
        · cases hs
        · rename_i hinfo
          have hr := (List.getElem?_eq_some_iff.1 hinfo).1
          split at hs
          · cases hs
          · split at hs
            · rename_i hact
              cases hs
              exact (congrArg (fun p : Option V × S => I p.2) hact).mp (h _ hr _ _ hc)
            · rename_i v s' hact
              have hs' : I s' := by
                exact (congrArg (fun p : Option V × S => I p.2) hact).mp (h _ hr _ _ hc)
              simp only at hs
              split at hs
              · split at hs <;> (cases hs; exact hs')
              · split at hs
                · cases hs
                  exact hs'
                · cases hs
      · split at hs
        · cases hs
          exact hc
        · cases hs

theorem returns_inv {act : Actions V S} {I : S → Prop} (h : ∀ r < 48, ∀ vs s, I s → I (act r vs s).2) {D : ℕ} {v0 : V}
    {tokens : List (Kind × V)} {s : S} {o : Outcome V S} (ho : Returns act D v0 tokens s o) (hs : I s) :
    ∀ s', outState o = some s' → I s' := by
  obtain ⟨-, n, rfl⟩ := ho
  have : ∀ n (c : Conf V S), I c.state → ∀ s', outState (run act D v0 n c) = some s' → I s' := by
    intro n
    induction n with
    | zero =>
      intro c hc s' hs'
      cases hs'
      exact hc
    | succ n ih =>
      intro c hc s' hs'
      unfold run at hs'
      have ht := tick_inv h D v0 c hc
      revert hs' ht
      rcases tick act D v0 c with c' | s | ⟨m, s⟩ | s | _
      · intro hs' ht
        exact ih c' (ht _ rfl) s' hs'
      all_goals exact fun hs' ht => ht s' hs'
  exact this n _ hs

end Schnek.Lemma.Lemon
