import Mathlib.Data.Fintype.Basic
import Mathlib.Data.Fintype.EquivFin
import Verif.Model.Dependencies
import Mathlib.Logic.Relation
import Mathlib.Data.Finset.Card
import Mathlib.Order.WellFounded
import Mathlib.Data.Fintype.Card
import Mathlib.Order.RelClasses
import Mathlib.Tactic.Common

namespace Schnek.Lemma.Dep

open Schnek.Deck Schnek.Deck.DepMap Relation

/-! ## breadth first search -/

@[simp] theorem mem_asc (s : Finset ℤ) (x : ℤ) : x ∈ asc s ↔ x ∈ s := by
  obtain ⟨⟨l⟩, h⟩ := s
  exact List.mem_insertionSort _

@[simp] theorem asc_nodup (s : Finset ℤ) : (asc s).Nodup := by
  obtain ⟨⟨l⟩, h⟩ := s
  exact (List.perm_insertionSort _ l).nodup_iff.mpr h

@[simp] theorem asc_length (s : Finset ℤ) : (asc s).length = s.card := by
  obtain ⟨⟨l⟩, h⟩ := s
  exact List.length_insertionSort _ l

@[simp] theorem asc_empty : asc ∅ = [] := rfl

@[simp] theorem asc_singleton (x : ℤ) : asc {x} = [x] := rfl

theorem visit_fold (L : List ℤ) : ∀ (w : List ℤ) (s : Finset ℤ), ∃ extra,
    L.foldl (fun (s : List ℤ × Finset ℤ) j => if j ∈ s.2 then s else (s.1 ++ [j], insert j s.2)) (w, s) =
      (w ++ extra, s ∪ L.toFinset) ∧
    (∀ x ∈ extra, x ∈ L) ∧ (∀ x ∈ L, x ∈ s ∨ x ∈ extra) ∧ (s ∪ L.toFinset).card = s.card + extra.length := by
  induction L with
  | nil => intro w s; exact ⟨[], by simp⟩
  | cons j L ih =>
      intro w s
      by_cases hj : j ∈ s
      · obtain ⟨extra, h1, h2, h3, h4⟩ := ih w s
        have hu : s ∪ (j :: L).toFinset = s ∪ L.toFinset := by
          ext x; simp only [List.toFinset_cons, Finset.mem_union, Finset.mem_insert]
          constructor
          · rintro (h | rfl | h)
            · exact .inl h
            · exact .inl hj
            · exact .inr h
          · rintro (h | h)
            · exact .inl h
            · exact .inr (.inr h)
        refine ⟨extra, ?_, ?_, ?_, ?_⟩
        · rw [List.foldl_cons, if_pos hj, hu]; exact h1
        · exact fun x hx => List.mem_cons_of_mem _ (h2 x hx)
        · intro x hx
          rcases List.mem_cons.mp hx with rfl | hx
          · exact .inl hj
          · exact h3 x hx
        · rw [hu]; exact h4
      · obtain ⟨extra, h1, h2, h3, h4⟩ := ih (w ++ [j]) (insert j s)
        have hu : s ∪ (j :: L).toFinset = insert j s ∪ L.toFinset := by
          ext x; simp only [List.toFinset_cons, Finset.mem_union, Finset.mem_insert]; tauto
        refine ⟨j :: extra, ?_, ?_, ?_, ?_⟩
        · rw [List.foldl_cons, if_neg hj, hu]
          simp only []
          rw [h1]; simp
        · intro x hx
          rcases List.mem_cons.mp hx with rfl | hx
          · exact List.mem_cons_self
          · exact List.mem_cons_of_mem _ (h2 x hx)
        · intro x hx
          rcases List.mem_cons.mp hx with rfl | hx
          · exact .inr List.mem_cons_self
          · rcases h3 x hx with h | h
            · rcases Finset.mem_insert.mp h with rfl | h
              · exact .inr List.mem_cons_self
              · exact .inl h
            · exact .inr (List.mem_cons_of_mem _ h)
        · rw [hu, h4, Finset.card_insert_of_notMem hj, List.length_cons]; omega

theorem search_total (next : ℤ → List ℤ) (U : Finset ℤ) (hU : ∀ x ∈ U, ∀ y ∈ next x, y ∈ U) :
    ∀ (n : ℕ) (work : List ℤ) (seen : Finset ℤ), seen ⊆ U → (∀ x ∈ work, x ∈ U) →
    U.card - seen.card + work.length < n → ∃ R, search next n work seen = some R := by
  intro n
  induction n with
  | zero => intro work seen _ _ h; omega
  | succ n ih =>
      intro work seen hs hw hn
      cases work with
      | nil => exact ⟨seen, rfl⟩
      | cons id work =>
          obtain ⟨extra, h1, h2, h3, h4⟩ := visit_fold (next id) work seen
          rw [search, h1]
          have hid := hw id List.mem_cons_self
          have hsub : seen ∪ (next id).toFinset ⊆ U := by
            intro x hx
            rcases Finset.mem_union.mp hx with h | h
            · exact hs h
            · exact hU id hid x (List.mem_toFinset.mp h)
          refine ih _ _ hsub ?_ ?_
          · intro x hx
            rcases List.mem_append.mp hx with h | h
            · exact hw x (List.mem_cons_of_mem _ h)
            · exact hU id hid x (h2 x h)
          · simp only [h4, List.length_append, List.length_cons] at hn ⊢
            have := Finset.card_le_card hsub
            rw [h4] at this
            omega

theorem search_mem (next : ℤ → List ℤ) : ∀ (n : ℕ) (work : List ℤ) (seen R : Finset ℤ),
    (∀ x ∈ work, x ∈ seen) → (∀ x ∈ seen, x ∉ work → ∀ y ∈ next x, y ∈ seen) →
    search next n work seen = some R →
    seen ⊆ R ∧ (∀ x ∈ R, ∀ y ∈ next x, y ∈ R) ∧
      (∀ x ∈ R, ∃ s ∈ seen, ReflTransGen (fun a b => b ∈ next a) s x) := by
  intro n
  induction n with
  | zero => intro work seen R _ _ h; simp [search] at h
  | succ n ih =>
      intro work seen R hw hc h
      cases work with
      | nil =>
          simp only [search, Option.some.injEq] at h
          subst h
          exact ⟨fun _ h => h, fun x hx y hy => hc x hx (by simp) y hy, fun x hx => ⟨x, hx, .refl⟩⟩
      | cons id work =>
          obtain ⟨extra, h1, h2, h3, h4⟩ := visit_fold (next id) work seen
          rw [search, h1] at h
          have hid := hw id List.mem_cons_self
          have key := ih (work ++ extra) (seen ∪ (next id).toFinset) R ?_ ?_ h
          · refine ⟨fun x hx => key.1 (Finset.mem_union_left _ hx), key.2.1, ?_⟩
            intro x hx
            obtain ⟨s, hs, hsx⟩ := key.2.2 x hx
            rcases Finset.mem_union.mp hs with h | h
            · exact ⟨s, h, hsx⟩
            · exact ⟨id, hid, .head (List.mem_toFinset.mp h) hsx⟩
          · intro x hx
            rcases List.mem_append.mp hx with h | h
            · exact Finset.mem_union_left _ (hw x (List.mem_cons_of_mem _ h))
            · exact Finset.mem_union_right _ (List.mem_toFinset.mpr (h2 x h))
          · intro x hx hnx y hy
            simp only [List.mem_append, not_or] at hnx
            by_cases hxid : x = id
            · subst hxid
              exact Finset.mem_union_right _ (List.mem_toFinset.mpr hy)
            · have hxs : x ∈ seen := by
                rcases Finset.mem_union.mp hx with h | h
                · exact h
                · rcases h3 x (List.mem_toFinset.mp h) with h | h
                  · exact h
                  · exact (hnx.2 h).elim
              exact Finset.mem_union_left _ (hc x hxs (by simp [hxid, hnx.1]) y hy)

/-- The search started with `seen` finds what is reachable from there. -/
theorem search_spec (next : ℤ → List ℤ) (n : ℕ) (work : List ℤ) (seen R : Finset ℤ)
    (hw : ∀ x, x ∈ work ↔ x ∈ seen) (h : search next n work seen = some R) (x : ℤ) :
    x ∈ R ↔ ∃ s ∈ seen, ReflTransGen (fun a b => b ∈ next a) s x := by
  obtain ⟨h1, h2, h3⟩ := search_mem next n work seen R (fun x hx => (hw x).mp hx)
    (fun x hx hnx => (hnx ((hw x).mpr hx)).elim) h
  refine ⟨h3 x, ?_⟩
  rintro ⟨s, hs, hr⟩
  induction hr with
  | refl => exact h1 hs
  | tail _ hbc ih => exact h2 _ ih _ hbc

/-! ## topological sort -/

/-- every element comes after those it depends on -/
def Topological (dep : ℤ → Finset ℤ) (deps : Finset ℤ) (l : List ℤ) : Prop :=
  ∀ l₁ b l₂, l = l₁ ++ b :: l₂ → ∀ a ∈ dep b, a ∈ deps → a ∈ l₁

theorem decrement_fold (deps : Finset ℤ) : ∀ (L : List ℤ) (c : ℤ → ℤ), L.Nodup →
    (∀ j ∈ L, j ∈ deps → 1 ≤ c j) →
    L.foldlM (decrement deps) c = some (fun j => if j ∈ L ∧ j ∈ deps then c j - 1 else c j) := by
  intro L
  induction L with
  | nil => intro c _ _; simp
  | cons i L ih =>
      intro c hn hc
      rw [List.foldlM_cons]
      have hni := (List.nodup_cons.mp hn).1
      by_cases hi : i ∈ deps
      · have h1 := hc i List.mem_cons_self hi
        rw [decrement, if_pos hi, if_pos (by omega)]
        simp only [Option.bind_eq_bind, Option.bind_some]
        rw [ih _ (List.nodup_cons.mp hn).2]
        · congr 1
          funext j
          by_cases hj : j = i
          · subst hj; simp [hni, hi]
          · simp [hj, Function.update_of_ne hj]
        · intro j hj hjd
          have : j ≠ i := fun h => hni (h ▸ hj)
          rw [Function.update_of_ne this]
          exact hc j (List.mem_cons_of_mem _ hj) hjd
      · rw [decrement, if_neg hi]
        simp only [Option.bind_eq_bind, Option.bind_some]
        rw [ih _ (List.nodup_cons.mp hn).2 (fun j hj => hc j (List.mem_cons_of_mem _ hj))]
        congr 1
        funext j
        by_cases hj : j = i
        · subst hj; simp [hni, hi]
        · simp [hj]

theorem orderLoop_spec (D : DepMap) (deps : Finset ℤ)
    (hm : ∀ i ∈ deps, ∀ j ∈ deps, j ∈ D.modifies i ↔ i ∈ D.dependsOn j) :
    ∀ (n : ℕ) (work : List ℤ) (c : ℤ → ℤ) (done : List ℤ), work.length = n → (done ++ work).Nodup →
    (∀ x, x ∈ done ++ work ↔ x ∈ deps) →
    (∀ j ∈ deps, c j = ((D.dependsOn j).filter (· ∈ work)).card) →
    Topological D.dependsOn deps done →
    (∀ l, orderLoop D deps n work c done = some l → l.Nodup ∧ (∀ x, x ∈ l ↔ x ∈ deps) ∧ Topological D.dependsOn deps l) ∧
    (orderLoop D deps n work c done = none → ∃ S : Finset ℤ, S.Nonempty ∧ S ⊆ deps ∧ ∀ b ∈ S, ∃ a ∈ S, a ∈ D.dependsOn b) := by
  intro n
  induction n with
  | zero =>
      intro work c done hlen hnd hmem hc ht
      have : work = [] := List.length_eq_zero_iff.mp hlen
      subst this
      rw [List.append_nil] at hnd hmem
      refine ⟨?_, by simp [orderLoop]⟩
      intro l hl
      simp only [orderLoop, Option.some.injEq] at hl
      subst hl
      exact ⟨hnd, hmem, ht⟩
  | succ n ih =>
      intro work c done hlen hnd hmem hc ht
      have hwork : ∀ x ∈ work, x ∈ deps := fun x hx => (hmem x).mp (List.mem_append_right _ hx)
      rw [orderLoop]
      cases hf : work.find? (fun id => c id = 0) with
      | none =>
          simp only [reduceCtorEq, false_implies, implies_true, true_and]
          intro _
          refine ⟨work.toFinset, ?_, fun x hx => hwork x (List.mem_toFinset.mp hx), ?_⟩
          · cases work with
            | nil => simp at hlen
            | cons x w => exact ⟨x, by simp⟩
          · intro b hb
            have hb' := List.mem_toFinset.mp hb
            have hne := List.find?_eq_none.mp hf b hb'
            simp only [decide_eq_true_eq] at hne
            rw [hc b (hwork b hb')] at hne
            have : ((D.dependsOn b).filter (· ∈ work)).Nonempty := by
              rw [← Finset.card_pos]; omega
            obtain ⟨a, ha⟩ := this
            rw [Finset.mem_filter] at ha
            exact ⟨a, List.mem_toFinset.mpr ha.2, ha.1⟩
      | some id =>
          have hidw := List.mem_of_find?_eq_some hf
          have hidd := hwork id hidw
          have hc0 : c id = 0 := by simpa using List.find?_some hf
          have hnone : ∀ a ∈ D.dependsOn id, a ∉ work := by
            intro a ha haw
            have h0 := hc id hidd
            rw [hc0] at h0
            have : ((D.dependsOn id).filter (· ∈ work)).card = 0 := by omega
            rw [Finset.card_eq_zero] at this
            have hin : a ∈ (D.dependsOn id).filter (· ∈ work) := Finset.mem_filter.mpr ⟨ha, haw⟩
            rw [this] at hin
            simp at hin
          have hfold := decrement_fold deps (asc (D.modifies id)) c (asc_nodup _) (by
            intro j hj hjd
            have hj' := (hm id hidd j hjd).mp ((mem_asc _ _).mp hj)
            rw [hc j hjd]
            have : 0 < ((D.dependsOn j).filter (· ∈ work)).card :=
              Finset.card_pos.mpr ⟨id, Finset.mem_filter.mpr ⟨hj', hidw⟩⟩
            omega)
          simp only [hfold, Option.bind_some]
          have hndw : work.Nodup := (List.nodup_append.mp hnd).2.1
          refine ih (work.erase id) _ (done ++ [id]) ?_ ?_ ?_ ?_ ?_
          · rw [List.length_erase_of_mem hidw, hlen]; rfl
          · rw [List.append_assoc]
            refine (List.Perm.nodup_iff ?_).mp hnd
            exact List.Perm.append_left done (List.perm_cons_erase hidw)
          · intro x
            rw [← hmem x, List.append_assoc]
            exact (List.Perm.append_left done (List.perm_cons_erase hidw)).symm.mem_iff
          · intro j hj
            have hsplit : (D.dependsOn j).filter (· ∈ work) =
                if id ∈ D.dependsOn j then insert id ((D.dependsOn j).filter (· ∈ work.erase id))
                else (D.dependsOn j).filter (· ∈ work.erase id) := by
              ext x
              by_cases hxid : x = id
              · subst hxid
                split_ifs with h <;> simp [h, hidw, hndw.mem_erase_iff]
              · split_ifs with h <;> simp [hxid, List.mem_erase_of_ne hxid]
            simp only [mem_asc, hm id hidd j hj, hj, and_true]
            rw [hc j hj, hsplit]
            split_ifs with h
            · rw [Finset.card_insert_of_notMem (by simp [hndw.mem_erase_iff])]
              push_cast
              omega
            · rfl
          · intro l₁ b l₂ hl a ha had
            rcases List.eq_nil_or_concat l₂ with rfl | ⟨l₃, z, rfl⟩
            · have h2 : done = l₁ ∧ id = b := by
                have := List.append_inj' hl (by simp)
                simpa using this
              obtain ⟨rfl, rfl⟩ := h2
              have h3 : a ∈ done ++ work := (hmem a).mpr had
              rcases List.mem_append.mp h3 with h | h
              · exact h
              · exact (hnone a ha h).elim
            · have h2 : done = l₁ ++ b :: l₃ ∧ id = z := by
                have : done ++ [id] = (l₁ ++ b :: l₃) ++ [z] := by rw [hl]; simp
                have := List.append_inj' this (by simp)
                simpa using this
              exact ht l₁ b l₃ h2.1 a ha had

theorem updateOrder_spec (D : DepMap) (deps : Finset ℤ)
    (hm : ∀ i ∈ deps, ∀ j ∈ deps, j ∈ D.modifies i ↔ i ∈ D.dependsOn j) :
    (∀ l, D.updateOrder deps = some l → l.Nodup ∧ (∀ x, x ∈ l ↔ x ∈ deps) ∧ Topological D.dependsOn deps l) ∧
    (D.updateOrder deps = none → ∃ S : Finset ℤ, S.Nonempty ∧ S ⊆ deps ∧ ∀ b ∈ S, ∃ a ∈ S, a ∈ D.dependsOn b) := by
  refine orderLoop_spec D deps hm deps.card (asc deps) _ [] (by simp) (by simp) (by simp) ?_ ?_
  · intro j _
    simp
  · intro l₁ b l₂ h
    simp at h

/-! ## cycles -/

theorem topological_lt (dep : ℤ → Finset ℤ) (deps : Finset ℤ) (l : List ℤ) (hn : l.Nodup) (hl : ∀ x, x ∈ l ↔ x ∈ deps)
    (ht : Topological dep deps l) (a b : ℤ) (ha : a ∈ deps) (hb : b ∈ deps) (hab : a ∈ dep b) :
    l.idxOf a < l.idxOf b := by
  obtain ⟨l₁, l₂, rfl⟩ := List.append_of_mem ((hl b).mpr hb)
  have ha1 := ht l₁ b l₂ rfl a hab ha
  have hb1 : b ∉ l₁ := by
    intro h
    have := (List.nodup_append.mp hn).2.2 b h b (by simp)
    exact this rfl
  rw [List.idxOf_append_of_mem ha1, List.idxOf_append_of_notMem hb1]
  have := List.idxOf_lt_length_of_mem ha1
  omega

theorem topological_acyclic (dep : ℤ → Finset ℤ) (deps : Finset ℤ) (l : List ℤ) (hn : l.Nodup)
    (hl : ∀ x, x ∈ l ↔ x ∈ deps) (ht : Topological dep deps l) (a : ℤ) :
    ¬ TransGen (fun a b => a ∈ deps ∧ b ∈ deps ∧ a ∈ dep b) a a := by
  have key : ∀ a b, TransGen (fun a b => a ∈ deps ∧ b ∈ deps ∧ a ∈ dep b) a b → l.idxOf a < l.idxOf b := by
    intro a b h
    induction h with
    | single h => exact topological_lt dep deps l hn hl ht _ _ h.1 h.2.1 h.2.2
    | tail _ h ih => exact ih.trans (topological_lt dep deps l hn hl ht _ _ h.1 h.2.1 h.2.2)
  intro h
  exact lt_irrefl _ (key a a h)

theorem cycle_of_pred {α : Type} (R : α → α → Prop) (S : Finset α) (hS : S.Nonempty) (h : ∀ b ∈ S, ∃ a ∈ S, R a b) :
    ∃ a ∈ S, TransGen R a a := by
  by_contra hno
  push Not at hno
  let r : S → S → Prop := fun a b => TransGen R a.1 b.1
  haveI : IsTrans S r := ⟨fun _ _ _ h1 h2 => h1.trans h2⟩
  haveI : Std.Irrefl r := ⟨fun a ha => hno a.1 a.2 ha⟩
  have wf : WellFounded r := Finite.wellFounded_of_trans_of_irrefl r
  obtain ⟨x, hx⟩ := hS
  obtain ⟨m, -, hm⟩ := wf.has_min Set.univ ⟨⟨x, hx⟩, trivial⟩
  obtain ⟨a, ha, hab⟩ := h m.1 m.2
  exact hm ⟨a, ha⟩ trivial (.single hab)

/-- induction along an acyclic relation on a finite set -/
theorem acyclic_induction {α : Type} (R : α → α → Prop) (S : Finset α) (hac : ∀ a ∈ S, ¬ TransGen R a a) (P : α → Prop)
    (h : ∀ u ∈ S, (∀ w ∈ S, R w u → P w) → P u) : ∀ u ∈ S, P u := by
  classical
  by_contra hno
  push Not at hno
  obtain ⟨u, hu, hP⟩ := hno
  obtain ⟨a, ha, hc⟩ := cycle_of_pred R (S.filter (fun u => ¬ P u)) ⟨u, by simp [hu, hP]⟩ (by
    intro b hb
    rw [Finset.mem_filter] at hb
    by_contra hnone
    push Not at hnone
    refine hb.2 (h b hb.1 ?_)
    intro w hw hwb
    by_contra hPw
    exact hnone w (by simp [hw, hPw]) hwb)
  exact hac a (Finset.mem_filter.mp ha).1 hc

end Schnek.Lemma.Dep
