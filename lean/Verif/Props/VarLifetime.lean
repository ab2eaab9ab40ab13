import Verif.Spec.VarLifetime
import Verif.Lemma.VarLifetime
import Verif.Props.Deck

/-!
# C153: the variables of a setup file live as long as they are used
-/

namespace Schnek.Props.VarLifetime

open Schnek.Deck Schnek.Spec Schnek.Lemma.Deck Schnek.Lemma.Blocks Schnek.Lemma.VarLifetime Schnek.Props Relation
open Schnek.Deck.VarLifetime (Mem members nodes)

/-- An object: a block of variables or a variable. -/
abbrev Node := Deck.VarLifetime.Node

abbrev Op := Deck.VarLifetime.Op

variable {F W : Type}

private theorem points_iff {D : DeckState F W} (h : DInv D) (x y : Node) : Points D x y ↔ VarLifetime.Leads D x y := by
  constructor
  · intro hxy
    cases x with
    | block b =>
      unfold Points members at hxy
      cases hb : D.store.blocks[b]? with
      | none => simp [hb] at hxy
      | some B =>
        simp only [hb] at hxy
        simp only [List.mem_append, List.mem_map, Option.mem_toList, Option.mem_def] at hxy
        rcases hxy with ((⟨p, hp, rfl⟩ | ⟨c, hc, rfl⟩) | ⟨c, ⟨⟨n, c'⟩, hc, rfl⟩, rfl⟩) | ⟨v, ⟨⟨n, v'⟩, hv, rfl⟩, rfl⟩
        · exact .up ⟨B, hb, hp⟩
        · exact .down ((mem_children h.store hb c).mp hc)
        · refine .down ((mem_children h.store hb c').mp ?_)
          rw [h.store.children b B hb]
          exact List.mem_map.mpr ⟨_, hc, rfl⟩
        · refine .var (n := n) ((Lemma.Vars.varOf_iff h.store b n v').mp ?_)
          unfold Storage.varOf
          rw [hb, Option.bind_some]
          exact (Lemma.Vars.find_iff _ (h.store.vars b B hb) n v').mpr hv
    | var v =>
      unfold Points members at hxy
      cases hb : D.heap[v]? with
      | none => simp [hb] at hxy
      | some X =>
        simp only [hb] at hxy
        cases he : X.expression with
        | none => simp [he] at hxy
        | some e =>
          rw [he] at hxy
          simp only [List.mem_map] at hxy
          obtain ⟨u, hu, rfl⟩ := hxy
          rw [holds_eq] at hu
          exact .formula hb he hu
  · intro hxy
    cases hxy with
    | up hd =>
      obtain ⟨B, hB, hp⟩ := hd
      simp only [Points, members, hB, List.mem_append, List.mem_map, Option.mem_toList, Option.mem_def]
      exact .inl (.inl (.inl ⟨_, hp, rfl⟩))
    | @down p b hd =>
      have hlt : p < D.store.blocks.length := by
        have h1 := h.store.parent b p hd
        obtain ⟨B, hB, -⟩ := hd
        have := (List.getElem?_eq_some_iff.mp hB).1
        omega
      have hb := List.getElem?_eq_getElem hlt
      simp only [Points, members, hb, List.mem_append, List.mem_map]
      exact .inl (.inl (.inr ⟨_, (mem_children h.store hb b).mpr hd, rfl⟩))
    | @var b v n hd =>
      have := (Lemma.Vars.varOf_iff h.store b n v).mpr hd
      unfold Storage.varOf at this
      obtain ⟨B, hB, hf⟩ := Option.bind_eq_some_iff.mp this
      have := (Lemma.Vars.find_iff _ (h.store.vars b B hB) n v).mp hf
      simp only [Points, members, hB, List.mem_append, List.mem_map]
      exact .inr ⟨v, ⟨_, this, rfl⟩, rfl⟩
    | formula hx he hu =>
      simp only [Points, members, hx, he, List.mem_map, holds_eq]
      exact ⟨_, hu, rfl⟩

private theorem made_iff (D : DeckState F W) (x : Node) : VarLifetime.Made D x ↔ x ∈ nodes D := by
  cases x <;> simp [VarLifetime.Made, nodes]

private theorem inv_uses {P : Program F W} (hdist : DistinctNames P.classes) {deck : List (Stmt F)} {handles : List Node}
    {ops : List Op} {m : Mem F W} (h : VarLifetime.Uses P deck handles ops m) : Inv (P.after deck) m :=
  inv_run ops (inv_start (closed_of (dinv_after P deck) (rinv_after P hdist deck)) fun x hx => (made_iff _ x).mp (h.1 x hx)) h.2

private theorem leads_eq (P : Program F W) (deck : List (Stmt F)) : Points (P.after deck) = VarLifetime.Leads (P.after deck) := by
  funext x y; exact propext (points_iff (dinv_after P deck) x y)

/-- **C153** Whatever a program does with its pointers to the objects of a setup file: all blocks of variables and variables that it can
get to from a pointer it has exist. -/
theorem C153_safe (P : Program F W) (hdist : DistinctNames P.classes) (deck : List (Stmt F)) (handles : List Node)
    (ops : List Op) (m : Mem F W) (h : VarLifetime.Uses P deck handles ops m) (x y : Node) (hx : x ∈ m.handles)
    (hxy : ReflTransGen (VarLifetime.Leads (P.after deck)) x y) : m.alive y = true := by
  have hI := inv_uses hdist h
  rw [← leads_eq] at hxy
  induction hxy with
  | refl => exact hI.handle x hx
  | tail _ h2 ih => exact hI.point _ _ ih h2

/-- **C153** (partial: up to cycles) When the program has no pointers left and nothing more can be destroyed, the objects that are left
are reached from objects on a cycle. -/
theorem C153_freed_partial (P : Program F W) (hdist : DistinctNames P.classes) (deck : List (Stmt F)) (handles : List Node)
    (ops : List Op) (m : Mem F W) (h : VarLifetime.Uses P deck handles ops m) (h0 : m.handles = [])
    (hd : ∀ x, m.step (.destroy x) = none) (x : Node) (hx : m.alive x = true) :
    ∃ y, VarLifetime.OnCycle (P.after deck) y ∧ ReflTransGen (VarLifetime.Leads (P.after deck)) y x := by
  have hI := inv_uses hdist h
  unfold VarLifetime.OnCycle
  rw [← leads_eq]
  obtain ⟨y, -, h1, h2⟩ := cycle_before (A := fun x => m.alive x = true) hI.exist (fun x hx => by
    have := hd x
    have hc : m.useCount x ≠ 0 := by
      intro hc; rw [Mem.step, if_pos ⟨hx, hc⟩] at this; cases this
    have hm : x ∈ m.pointers := by
      by_contra hm; exact hc (List.count_eq_zero.mpr hm)
    rcases (mem_pointers hI).mp hm with hm | hm
    · rw [h0] at hm; cases hm
    · exact hm) hx
  exact ⟨y, h1, h2⟩

/-- **C153** The state in which nothing more can be destroyed is reached: objects without pointers to them are destroyed one after the
other, and this comes to an end. -/
theorem C153_settles (P : Program F W) (hdist : DistinctNames P.classes) (deck : List (Stmt F)) (handles : List Node)
    (ops : List Op) (m : Mem F W) (h : VarLifetime.Uses P deck handles ops m) :
    ∃ (l : List Node) (m' : Mem F W), VarLifetime.Uses P deck handles (ops ++ l.map .destroy) m' ∧ m'.handles = m.handles ∧
      ∀ x, m'.step (.destroy x) = none := by
  obtain ⟨k, hk⟩ : ∃ k, ((nodes (P.after deck)).filter m.alive).length = k := ⟨_, rfl⟩
  induction k using Nat.strong_induction_on generalizing ops m with
  | _ k ih =>
    by_cases hd : ∀ x, m.step (.destroy x) = none
    · exact ⟨[], m, by simpa using h, rfl, hd⟩
    · push Not at hd
      obtain ⟨x, hx⟩ := hd
      obtain ⟨m1, hm1⟩ := Option.ne_none_iff_exists'.mp hx
      have hu : VarLifetime.Uses P deck handles (ops ++ [.destroy x]) m1 := by
        refine ⟨h.1, ?_⟩
        have := h.2
        simp only [Mem.run, List.foldlM_append] at this ⊢
        rw [this]
        simpa using hm1
      have hsh : m1.handles = m.handles ∧ m.alive x = true ∧ m1.alive = Function.update m.alive x false := by
        rw [Mem.step] at hm1
        split at hm1
        · rename_i hc
          cases hm1; exact ⟨rfl, hc.1, rfl⟩
        · cases hm1
      have hlt : ((nodes (P.after deck)).filter m1.alive).length < k := by
        rw [← hk, hsh.2.2]
        have he : (nodes (P.after deck)).filter (Function.update m.alive x false) =
            ((nodes (P.after deck)).filter m.alive).filter fun y => decide (y ≠ x) := by
          rw [List.filter_filter]
          refine List.filter_congr fun y _ => ?_
          by_cases hyx : y = x
          · subst hyx; simp
          · simp [Function.update_of_ne hyx, hyx]
        rw [he, List.length_filter_lt_length_iff_exists]
        exact ⟨x, List.mem_filter.mpr ⟨(inv_uses hdist h).exist x hsh.2.1, hsh.2.1⟩, by simp⟩
      obtain ⟨l, m', h1, h2, h3⟩ := ih _ hlt (ops ++ [.destroy x]) m1 hu rfl
      exact ⟨x :: l, m', by simpa using h1, by rw [h2, hsh.1], h3⟩

/-- **C153 is false of objects on cycles**: nothing the program does leads to the destruction of an object that is reached from an object
on a cycle. -/
theorem C153_violated_cycles (P : Program F W) (hdist : DistinctNames P.classes) (deck : List (Stmt F)) (handles : List Node)
    (ops : List Op) (m : Mem F W) (h : VarLifetime.Uses P deck handles ops m) (x y : Node) (hc : VarLifetime.OnCycle (P.after deck) y)
    (hyx : ReflTransGen (VarLifetime.Leads (P.after deck)) y x) : m.alive x = true ∧ m.step (.destroy x) = none := by
  have hcl := closed_of (dinv_after P deck) (rinv_after P hdist deck)
  have hI0 := inv_start hcl (hs := handles) fun x hx => (made_iff _ x).mp (h.1 x hx)
  have hK : ∀ z, ReflTransGen (VarLifetime.Leads (P.after deck)) y z → ∃ w, ReflTransGen (VarLifetime.Leads (P.after deck)) y w ∧ Points (P.after deck) w z := by
    intro z hz
    have : TransGen (VarLifetime.Leads (P.after deck)) y z := TransGen.trans_left hc hz
    obtain ⟨w, h1, h2⟩ := TransGen.tail'_iff.mp this
    exact ⟨w, h1, by rw [leads_eq]; exact h2⟩
  have hstart : ∀ z, ReflTransGen (VarLifetime.Leads (P.after deck)) y z → (Mem.start (P.after deck) handles).alive z = true := by
    intro z hz
    obtain ⟨w, -, h2⟩ := hK z hz
    simpa [Mem.start] using hcl w z h2
  have ha := keep_run hK ops hI0 hstart h.2
  refine ⟨ha x hyx, ?_⟩
  rw [Mem.step, if_neg]
  rintro ⟨-, h0⟩
  obtain ⟨w, h1, h2⟩ := hK x hyx
  exact List.count_eq_zero.mp h0 ((mem_pointers (inv_uses hdist h)).mpr (.inr ⟨w, ha w h1, h2⟩))

/-- **C153 is false of every file with a block in it**: block and surrounding block hold each other. No block of variables of such a file
and none of its variables is ever destroyed. -/
theorem C153_violated_blocks (P : Program F W) (hdist : DistinctNames P.classes) (deck : List (Stmt F))
    (hb : 1 < (P.after deck).store.blocks.length) (handles : List Node) (ops : List Op) (m : Mem F W)
    (h : VarLifetime.Uses P deck handles ops m) :
    (∀ b, b < (P.after deck).store.blocks.length → m.alive (.block b) = true) ∧
    ∀ b n v, Declares (P.after deck).store b n v → m.alive (.var v) = true := by
  have hD := dinv_after P deck
  have hroot : ∀ b, b < (P.after deck).store.blocks.length → ReflTransGen (VarLifetime.Leads (P.after deck)) (.block 0) (.block b) := by
    intro b
    induction b using Nat.strong_induction_on with
    | _ b ih =>
      intro hlt
      rcases Nat.eq_zero_or_pos b with rfl | hpos
      · exact .refl
      · obtain ⟨p, hp⟩ := hD.store.some_parent b hpos hlt
        have := hD.store.parent b p hp
        exact (ih p this (by omega)).tail (.down hp)
  have hcyc : VarLifetime.OnCycle (P.after deck) (.block 0) := by
    obtain ⟨p, hp⟩ := hD.store.some_parent 1 (by omega) hb
    have := hD.store.parent 1 p hp
    obtain rfl : p = 0 := by omega
    exact TransGen.tail (.single (.down hp)) (.up hp)
  refine ⟨fun b hlt => (C153_violated_cycles P hdist deck handles ops m h _ _ hcyc (hroot b hlt)).1, fun b n v hd => ?_⟩
  have hlt : b < (P.after deck).store.blocks.length := by
    have := (Lemma.Vars.varOf_iff hD.store b n v).mpr hd
    unfold Storage.varOf at this
    obtain ⟨B, hB, -⟩ := Option.bind_eq_some_iff.mp this
    exact (List.getElem?_eq_some_iff.mp hB).1
  exact (C153_violated_cycles P hdist deck handles ops m h _ _ hcyc ((hroot b hlt).tail (.var hd))).1

/-- **C153** (partial: files without blocks in which no variable is defined by itself) When the program has no pointers left, everything
is destroyed. -/
theorem C153_all_freed_partial (P : Program F W) (hdist : DistinctNames P.classes) (deck : List (Stmt F))
    (hb : (P.after deck).store.blocks.length = 1) (hv : ∀ v, ¬ VarLifetime.OnCycle (P.after deck) (.var v)) (handles : List Node)
    (ops : List Op) (m : Mem F W) (h : VarLifetime.Uses P deck handles ops m) (h0 : m.handles = [])
    (hd : ∀ x, m.step (.destroy x) = none) (x : Node) : m.alive x = false := by
  by_contra hx
  obtain ⟨y, hy, -⟩ := C153_freed_partial P hdist deck handles ops m h h0 hd x (by simpa using hx)
  cases y with
  | var v => exact hv v hy
  | block b =>
    have hD := dinv_after P deck
    have hno : ∀ p c, ¬ DirectlyIn (P.after deck).store p c := by
      intro p c hpc
      have h1 := hD.store.parent c p hpc
      obtain ⟨C, hC, -⟩ := hpc
      have := (List.getElem?_eq_some_iff.mp hC).1
      omega
    have key : ∀ z, TransGen (VarLifetime.Leads (P.after deck)) (.block b) z → ∃ v, z = .var v := by
      intro z hz
      induction hz with
      | single h1 =>
        cases h1 with
        | up h => exact (hno _ _ h).elim
        | down h => exact (hno _ _ h).elim
        | var _ => exact ⟨_, rfl⟩
      | tail _ h1 ih =>
        obtain ⟨v, rfl⟩ := ih
        cases h1 with
        | formula => exact ⟨_, rfl⟩
    obtain ⟨v, hv⟩ := key _ hy
    cases hv

section Examples

private theorem distinct : DistinctNames exampleProgram.classes := by
  intro c d specs h hf
  simp only [exampleProgram, List.lookup_cons] at h
  split at h
  · rw [Option.some.injEq] at h
    subst h
    rw [Option.some.injEq] at hf
    subst hf
    decide
  · split at h
    · rw [Option.some.injEq] at h
      subst h
      rw [Option.some.injEq] at hf
      subst hf
      decide
    · simp at h

/-- `int a = t; int b = a;` -/
def flatDeck : List (Stmt ℚ) := [.decl .int [("a", some (ident "t"))], .decl .int [("b", some (ident "a"))]]

/-- the objects that are left -/
def left (P : Program ℚ Unit) (deck : List (Stmt ℚ)) (handles : List Node) (ops : List Op) : Option (List Node) :=
  ((Mem.start (P.after deck) handles).run ops).map fun m => (nodes (P.after deck)).filter m.alive

/-- The hypotheses of `C153_all_freed_partial` are met: there are no blocks in the file, and formulas mention earlier variables only. -/
example : (exampleProgram.after flatDeck).store.blocks.length = 1 ∧ ∀ v, ¬ VarLifetime.OnCycle (exampleProgram.after flatDeck) (.var v) := by
  constructor
  · decide +kernel
  · have hlt : ∀ v < (exampleProgram.after flatDeck).heap.length, ∀ u ∈ members (exampleProgram.after flatDeck) (.var v),
        u ∈ (List.range v).map Deck.VarLifetime.Node.var := by decide +kernel
    have key : ∀ v y, TransGen (VarLifetime.Leads (exampleProgram.after flatDeck)) (.var v) y → ∃ u, y = .var u ∧ u < v := by
      intro v y hy
      rw [← leads_eq] at hy
      have one : ∀ v y, Points (exampleProgram.after flatDeck) (.var v) y → ∃ u, y = .var u ∧ u < v := by
        intro v y h
        by_cases hv : v < (exampleProgram.after flatDeck).heap.length
        · obtain ⟨u, hu, rfl⟩ := List.mem_map.mp (hlt v hv y h)
          exact ⟨u, rfl, List.mem_range.mp hu⟩
        · unfold Points members at h
          simp [List.getElem?_eq_none (Nat.le_of_not_lt hv)] at h
      induction hy with
      | single h => exact one _ _ h
      | tail _ h ih =>
        obtain ⟨u, rfl, hu⟩ := ih
        obtain ⟨w, rfl, hw⟩ := one _ _ h
        exact ⟨w, rfl, by omega⟩
    intro v hv
    obtain ⟨u, hu, hlt⟩ := key v _ hv
    cases hu
    exact absurd hlt (lt_irrefl _)

/-- The block of variables goes with the last pointer to it, then its variables; the variable `a` (2) is needed by `b` (3). -/
example : left exampleProgram flatDeck [.block 0] [.release (.block 0), .destroy (.block 0), .destroy (.var 0)] =
      some [.var 1, .var 2, .var 3] ∧
    left exampleProgram flatDeck [.block 0] [.release (.block 0), .destroy (.block 0), .destroy (.var 2)] = none ∧
    left exampleProgram flatDeck [.block 0] [.release (.block 0), .destroy (.block 0), .destroy (.var 0), .destroy (.var 3),
      .destroy (.var 2), .destroy (.var 1)] = some [] ∧
    left exampleProgram flatDeck [.block 0] [.hold (.var 2), .release (.block 0), .destroy (.block 0), .destroy (.var 3),
      .destroy (.var 2)] = none := by
  decide +kernel

/-- The hypotheses of `C153_violated_blocks` are met. -/
example : 1 < (exampleProgram.after exampleDeck).store.blocks.length := by decide +kernel

/-- After `int x = t; x = x + 1;` the variable `x` is on a cycle. -/
example : VarLifetime.OnCycle (exampleProgram.after [.decl .int [("x", some (ident "t"))], .assign "x" (plus "x" 1)]) (.var 2) := by
  unfold VarLifetime.OnCycle
  rw [← leads_eq]
  refine .single ?_
  show Deck.VarLifetime.Node.var 2 ∈ members _ _
  decide +kernel

end Examples

end Schnek.Props.VarLifetime
