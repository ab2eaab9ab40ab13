import Verif.Lemma.ParametersGroup
import Verif.Props.Deck

/-!
# C132: groups of parameters
-/

namespace Schnek.Props

open Schnek.Deck Schnek.Spec Schnek.Lemma.Deck DeckState

variable {F W : Type}

/-- **C132** (partial: the property is about all parameters of the group, also those that have been set by the file) Variables `vs` are
added to an empty group at any point while a file is read. After further statements, the group contains exactly those of them that have not
been assigned to since. -/
theorem C132_elements_partial (P : Program F W) (deck rest : List (Stmt F)) (hdeck : P.Accepts deck) (address : ℕ) (vs : List ℕ)
    (hvs : ∀ v ∈ vs, v < (P.after deck).heap.length) (v : ℕ) (hv : v < (P.after (deck ++ rest)).heap.length) :
    (P.after (deck ++ rest)).isElement ((P.after deck).addToGroup ⟨address, []⟩ vs) v = true ↔
      v ∈ vs ∧ ¬ AssignedIn P.host (P.after deck) rest v := by
  have hi := dinv_after P deck
  have hi' := dinv_after P (deck ++ rest)
  have hafter : P.after (deck ++ rest) = ((P.after deck).run P.host rest).2 := after_append P deck rest hdeck
  have hid : ∀ (D : DeckState F W) (u : ℕ) (x : Variable F W), D.heap[u]? = some x → D.idOf u = x.id := by
    intro D u x hx
    simp [idOf, state, hx]
  unfold isElement
  rw [List.contains_iff_mem, mem_group]
  simp only [List.not_mem_nil, false_or]
  rw [hid _ v _ (List.getElem?_eq_getElem hv)]
  constructor
  · rintro ⟨u, hu, e⟩
    have hux := List.getElem?_eq_getElem (hvs u hu)
    rw [hid _ u _ hux] at e
    obtain ⟨x', hx', i1, i2⟩ := id_iff P.host rest _ hi u _ hux
    rw [← hafter] at hx'
    rcases i2 with i2 | i2
    · have huv : v = u := hi'.inj v u _ x' (List.getElem?_eq_getElem hv) hx' (by rw [i2, e])
      subst huv
      exact ⟨hu, i1.mp i2⟩
    · -- the old id is not used again
      exfalso
      have hlt := hi.lt u _ hux
      by_cases hvl : v < (P.after deck).heap.length
      · obtain ⟨y', hy', j1, j2⟩ := id_iff P.host rest _ hi v _ (List.getElem?_eq_getElem hvl)
        rw [← hafter, List.getElem?_eq_getElem hv, Option.some.injEq] at hy'
        subst hy'
        rcases j2 with j2 | j2
        · have := hi.inj v u _ _ (List.getElem?_eq_getElem hvl) hux (by rw [← j2, e])
          subst this
          rw [List.getElem?_eq_getElem hv, Option.some.injEq] at hx'
          subst hx'
          omega
        · omega
      · have hnew := newIds_run P.host (P.after deck) rest
        rw [← hafter] at hnew
        rcases hnew.ids v _ (List.getElem?_eq_getElem hv) with ⟨x, hx, -⟩ | h2
        · exact hvl (List.getElem?_eq_some_iff.mp hx).1
        · omega
  · rintro ⟨hm, hn⟩
    have hvx := List.getElem?_eq_getElem (hvs v hm)
    obtain ⟨x', hx', i1, -⟩ := id_iff P.host rest _ hi v _ hvx
    rw [← hafter, List.getElem?_eq_getElem hv, Option.some.injEq] at hx'
    subst hx'
    exact ⟨v, hm, by rw [hid _ v _ hvx]; exact i1.mpr hn⟩

/-- The hypotheses of `C132_elements_partial` are met, and both sides occur: two variables `a` and `b` are in the group, `b` is assigned to. -/
example : exampleProgram.Accepts [.decl .int [("a", some (lit 1)), ("b", some (lit 2))]] ∧
    (let D := exampleProgram.after [.decl .int [("a", some (lit 1)), ("b", some (lit 2))]]
     let D' := exampleProgram.after ([.decl .int [("a", some (lit 1)), ("b", some (lit 2))]] ++ [.assign "b" (lit 3), .decl .int [("c", some (lit 2))]])
     D.heap.length = 4 ∧ D'.heap.length = 5 ∧ D'.isElement (D.addToGroup ⟨0, []⟩ [2, 3]) 3 = true ∧
      D'.isElement (D.addToGroup ⟨0, []⟩ [2, 3]) 2 = false ∧ D'.isElement (D.addToGroup ⟨0, []⟩ [2, 3]) 4 = false) := by
  unfold Program.Accepts
  decide +kernel

/-- **C132** The read-only parameters in a group, for example the coordinates, are elements of it, whatever the file contains. -/
theorem C132_read_only (P : Program F W) (deck rest : List (Stmt F)) (address : ℕ) (vs : List ℕ)
    (v : ℕ) (hv : v ∈ vs) (x : Variable F W) (hx : (P.after deck).heap[v]? = some x) (hr : x.readOnly = true) :
    (P.after (deck ++ rest)).isElement ((P.after deck).addToGroup ⟨address, []⟩ vs) v = true := by
  obtain ⟨x', hx', -, -, h⟩ := C41_kept P deck rest v x hx
  unfold isElement
  rw [List.contains_iff_mem, mem_group]
  exact Or.inr ⟨v, hv, by simp [idOf, state, hx, hx', h hr]⟩

/-- C132 is violated: a parameter that is set in the file is no longer an element of the group it was added to. The assignment replaces the
id of the variable, which the group has stored. -/
theorem C132_violated_set : ∃ (file : List (Stmt ℚ)) (v : ℕ), file = [.assign "size" (lit 2)] ∧
    exampleProgram.begin.store.varOf 0 "size" = some v ∧ exampleProgram.Accepts file ∧
    exampleProgram.begin.isElement (exampleProgram.begin.addToGroup ⟨0, []⟩ [v]) v = true ∧
    (exampleProgram.after file).isElement (exampleProgram.begin.addToGroup ⟨0, []⟩ [v]) v = false :=
  ⟨_, 0, rfl, by decide +kernel, by unfold Program.Accepts; decide +kernel, by decide +kernel, by decide +kernel⟩

/-- C132 is violated: asking which of some ids are not in the group is undefined whatever the group and the set contain, unless the set is the
one inside the group. -/
theorem C132_violated_hasElements (group ids : IdSet) (h : group.address ≠ ids.address) : hasElements group ids = none := by
  unfold hasElements IdSet.erase IdSet.begin
  rw [if_neg (fun hc => h hc.1)]
  rfl

end Schnek.Props
