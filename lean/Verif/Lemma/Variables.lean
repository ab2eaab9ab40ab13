import Verif.Spec.Variables

namespace Schnek.Lemma.Vars

open Schnek.Deck Schnek.Spec Relation

/-! ### lists -/

theorem find_iff {α : Type} (l : List (String × α)) (h : (l.map Prod.fst).Nodup) (n : String) (v : α) :
    find l n = some v ↔ (n, v) ∈ l := by
  induction l with
  | nil => simp [find]
  | cons p l ih =>
    obtain ⟨m, w⟩ := p
    simp only [List.map_cons, List.nodup_cons, List.mem_map, not_exists, not_and] at h
    have := ih h.2
    unfold find at this ⊢
    by_cases hm : n = m
    · subst hm
      simp only [List.lookup_cons, beq_self_eq_true, Option.some.injEq, List.mem_cons, Prod.mk.injEq, true_and]
      constructor
      · rintro rfl; exact Or.inl rfl
      · rintro (rfl | hv)
        · rfl
        · exact absurd rfl (h.1 _ hv)
    · have hb : (n == m) = false := by simp [hm]
      simp only [List.lookup_cons, hb, List.mem_cons, Prod.mk.injEq, hm, false_and, false_or]
      exact this

theorem find_none {α : Type} (l : List (String × α)) (n : String) : find l n = none ↔ n ∉ l.map Prod.fst := by
  induction l with
  | nil => simp [find]
  | cons p l ih =>
    obtain ⟨m, w⟩ := p
    unfold find at ih ⊢
    by_cases hm : n = m
    · subst hm; simp [List.lookup_cons]
    · have hb : (n == m) = false := by simp [hm]
      simp only [List.lookup_cons, hb, List.map_cons, List.mem_cons, hm, false_or]
      exact ih

theorem find_append {α : Type} (l : List (String × α)) (n m : String) (v : α) :
    find (l ++ [(n, v)]) m = if (find l m).isSome then find l m else if m = n then some v else none := by
  induction l with
  | nil =>
    by_cases hm : m = n
    · subst hm; simp [find]
    · have hb : (m == n) = false := by simp [hm]
      simp [find, List.lookup_cons, hb, hm]
  | cons p l ih =>
    obtain ⟨k, w⟩ := p
    unfold find at ih ⊢
    by_cases hm : m = k
    · subst hm; simp [List.lookup_cons]
    · have hb : (m == k) = false := by simp [hm]
      simp only [List.cons_append, List.lookup_cons, hb]
      exact ih

/-! ### names -/

theorem splitChars_ne (sep : Char) (l : List Char) : splitChars sep l ≠ [] := by
  cases l with
  | nil => simp [splitChars]
  | cons c cs =>
    unfold splitChars
    split
    · simp
    · split <;> simp

theorem splitChars_plain (sep : Char) (l : List Char) (h : sep ∉ l) : splitChars sep l = [l] := by
  induction l with
  | nil => rfl
  | cons c cs ih =>
    simp only [List.mem_cons, not_or] at h
    unfold splitChars
    rw [if_neg (fun e => h.1 e.symm), ih h.2]

theorem splitChars_append (sep : Char) (l m : List Char) (h : sep ∉ l) :
    splitChars sep (l ++ sep :: m) = l :: splitChars sep m := by
  induction l with
  | nil => simp [splitChars]
  | cons c cs ih =>
    simp only [List.mem_cons, not_or] at h
    rw [List.cons_append]
    have e : splitChars sep (c :: (cs ++ sep :: m)) = match splitChars sep (cs ++ sep :: m) with
        | [] => [[c]]
        | w :: ws => (c :: w) :: ws := by
      rw [splitChars, if_neg (fun e => h.1 e.symm)]
      rfl
    rw [e, ih h.2]

theorem splitChars_join (sep : Char) (path : List (List Char)) (hne : path ≠ []) (h : ∀ n ∈ path, sep ∉ n) :
    splitChars sep ([sep].intercalate path) = path := by
  induction path with
  | nil => exact absurd rfl hne
  | cons w ws ih =>
    have hw := h w (by simp)
    cases ws with
    | nil => simpa [List.intercalate] using splitChars_plain sep w hw
    | cons w' ws =>
      have := ih (by simp) (fun n hn => h n (by simp [hn]))
      have e : [sep].intercalate (w :: w' :: ws) = w ++ sep :: [sep].intercalate (w' :: ws) := by
        simp [List.intercalate, List.intersperse]
      rw [e, splitChars_append _ _ _ hw, this]

theorem splitName_written (sep : Char) (path : List String) (name : String) (h : Written sep path name) :
    splitName sep name = path := by
  obtain ⟨h1, h2, h3⟩ := h
  unfold splitName
  rw [h1, splitChars_join _ _ (by simpa using h2) (by
    intro n hn
    obtain ⟨m, hm, rfl⟩ := List.mem_map.mp hn
    exact h3 m hm)]
  rw [List.map_map]
  conv_rhs => rw [← List.map_id path]
  apply List.map_congr_left
  intro a _
  simp

/-! ### invariant -/

structure Inv (S : Storage) : Prop where
  cursor : S.cursor < S.blocks.length
  root : S.parentOf 0 = none
  parent : ∀ b p, DirectlyIn S p b → p < b
  some_parent : ∀ b, 0 < b → b < S.blocks.length → ∃ p, DirectlyIn S p b
  vars : ∀ (b : ℕ) (B : BlockVars), S.blocks[b]? = some B → (B.vars.map Prod.fst).Nodup
  names : ∀ (b : ℕ) (B : BlockVars), S.blocks[b]? = some B → (B.childrenByName.map Prod.fst).Nodup
  child : ∀ (b : ℕ) (B : BlockVars), S.blocks[b]? = some B → ∀ n c, (n, c) ∈ B.childrenByName ↔ ChildNamed S b n c
  children : ∀ (b : ℕ) (B : BlockVars), S.blocks[b]? = some B → B.children = B.childrenByName.map Prod.snd

theorem Inv.pos {S : Storage} (h : Inv S) : 0 < S.blocks.length := by have := h.cursor; omega

theorem directlyIn_iff (S : Storage) (p b : ℕ) : DirectlyIn S p b ↔ S.parentOf b = some p := by
  unfold DirectlyIn Storage.parentOf
  cases S.blocks[b]? with
  | none => simp
  | some B => simp

theorem varOf_iff {S : Storage} (h : Inv S) (b : ℕ) (n : String) (v : Var) :
    S.varOf b n = some v ↔ Declares S b n v := by
  unfold Storage.varOf Declares
  cases hb : S.blocks[b]? with
  | none => simp
  | some B =>
    simp only [Option.bind_some, Option.some.injEq, exists_eq_left']
    exact find_iff _ (h.vars b B hb) n v

theorem childOf_iff {S : Storage} (h : Inv S) (b : ℕ) (hb : b < S.blocks.length) (n : String) (c : ℕ) :
    S.childOf b n = some c ↔ ChildNamed S b n c := by
  unfold Storage.childOf
  have hb' : S.blocks[b]? = some S.blocks[b] := List.getElem?_eq_getElem hb
  rw [hb', Option.bind_some, find_iff _ (h.names b _ hb'), h.child b _ hb']

theorem childNamed_lt {S : Storage} {b c : ℕ} {n : String} (h : ChildNamed S b n c) : c < S.blocks.length := by
  obtain ⟨C, hC, -⟩ := h
  exact (List.getElem?_eq_some_iff.mp hC).1

theorem inv_create (n c : String) : Inv (Storage.create n c) := by
  have hb : ∀ b B, (Storage.create n c).blocks[b]? = some B →
      b = 0 ∧ B = { name := n, className := c, parent := none, children := [], vars := [], childrenByName := [] } := by
    intro b B h
    cases b with
    | zero => simp [Storage.create] at h; exact ⟨rfl, h.symm⟩
    | succ b => simp [Storage.create] at h
  refine ⟨by simp [Storage.create], rfl, ?_, ?_, ?_, ?_, ?_, ?_⟩
  · rintro b p ⟨B, h, h'⟩; obtain ⟨-, rfl⟩ := hb b B h; simp at h'
  · intro b h0 h1; simp [Storage.create] at h1; omega
  · intro b B h; obtain ⟨-, rfl⟩ := hb b B h; simp
  · intro b B h; obtain ⟨-, rfl⟩ := hb b B h; simp
  · intro b B h m d; obtain ⟨-, rfl⟩ := hb b B h
    simp only [List.not_mem_nil, ChildNamed, false_iff, not_exists, not_and]
    intro C hC; obtain ⟨-, rfl⟩ := hb _ C hC; simp
  · intro b B h; obtain ⟨-, rfl⟩ := hb b B h; simp

theorem modify_get {α : Type} (l : List α) (i j : ℕ) (f : α → α) :
    (l.modify i f)[j]? = if i = j then l[j]?.map f else l[j]? := by
  rw [List.getElem?_modify]
  split <;> simp

/-- same blocks except for the variables -/
theorem inv_congr {S T : Storage} (h : Inv S) (hl : T.blocks.length = S.blocks.length) (hc : T.cursor < T.blocks.length)
    (hv : ∀ (b : ℕ) (B : BlockVars), T.blocks[b]? = some B → (B.vars.map Prod.fst).Nodup)
    (hb : ∀ (b : ℕ) (B : BlockVars), T.blocks[b]? = some B → ∃ A : BlockVars, S.blocks[b]? = some A ∧ B.name = A.name ∧ B.parent = A.parent ∧
      B.children = A.children ∧ B.childrenByName = A.childrenByName) : Inv T := by
  have hget : ∀ (b : ℕ) (A : BlockVars), S.blocks[b]? = some A → ∃ B : BlockVars, T.blocks[b]? = some B ∧ B.name = A.name ∧ B.parent = A.parent := by
    intro b A hA
    have hlt : b < T.blocks.length := by rw [hl]; exact (List.getElem?_eq_some_iff.mp hA).1
    obtain ⟨A', hA', h1, h2, -⟩ := hb b _ (List.getElem?_eq_getElem hlt)
    rw [hA] at hA'; cases hA'
    exact ⟨_, List.getElem?_eq_getElem hlt, h1, h2⟩
  have hd : ∀ p b, DirectlyIn T p b ↔ DirectlyIn S p b := by
    intro p b
    constructor
    · rintro ⟨B, hB, hp⟩
      obtain ⟨A, hA, -, h2, -⟩ := hb b B hB
      exact ⟨A, hA, by rw [← h2]; exact hp⟩
    · rintro ⟨A, hA, hp⟩
      obtain ⟨B, hB, -, h2⟩ := hget b A hA
      exact ⟨B, hB, by rw [h2]; exact hp⟩
  have hcn : ∀ b n c, ChildNamed T b n c ↔ ChildNamed S b n c := by
    intro b n c
    constructor
    · rintro ⟨B, hB, hp, hn⟩
      obtain ⟨A, hA, h1, h2, -⟩ := hb c B hB
      exact ⟨A, hA, by rw [← h2]; exact hp, by rw [← h1]; exact hn⟩
    · rintro ⟨A, hA, hp, hn⟩
      obtain ⟨B, hB, h1, h2⟩ := hget c A hA
      exact ⟨B, hB, by rw [h2]; exact hp, by rw [h1]; exact hn⟩
  refine ⟨hc, ?_, ?_, ?_, hv, ?_, ?_, ?_⟩
  · have := h.root
    rcases ho : T.parentOf 0 with _ | p
    · rfl
    · rw [← directlyIn_iff, hd, directlyIn_iff, this] at ho; simp at ho
  · intro b p hp; exact h.parent b p ((hd p b).mp hp)
  · intro b h0 h1
    obtain ⟨p, hp⟩ := h.some_parent b h0 (by omega)
    exact ⟨p, (hd p b).mpr hp⟩
  · intro b B hB
    obtain ⟨A, hA, -, -, -, h4⟩ := hb b B hB
    rw [h4]; exact h.names b A hA
  · intro b B hB n c
    obtain ⟨A, hA, -, -, -, h4⟩ := hb b B hB
    rw [h4, h.child b A hA, hcn]
  · intro b B hB
    obtain ⟨A, hA, -, -, h3, h4⟩ := hb b B hB
    rw [h3, h4]; exact h.children b A hA

theorem addVariableTo_blocks {S T : Storage} {b : ℕ} {n : String} {v : Var} (h : S.addVariableTo b n v = some T)
    (d : ℕ) : T.blocks[d]? =
      if b = d then S.blocks[d]?.map (fun B => { B with vars := B.vars ++ [(n, v)] }) else S.blocks[d]? := by
  unfold Storage.addVariableTo at h
  split at h
  · simp at h
  · simp only [Option.some.injEq] at h
    subst h
    simp only [Storage.modifyBlock, modify_get]

theorem addVariableTo_cursor {S T : Storage} {b : ℕ} {n : String} {v : Var} (h : S.addVariableTo b n v = some T) :
    T.cursor = S.cursor ∧ T.blocks.length = S.blocks.length := by
  unfold Storage.addVariableTo at h
  split at h
  · simp at h
  · simp only [Option.some.injEq] at h
    subst h
    simp [Storage.modifyBlock]

theorem addVariableTo_new {S T : Storage} {b : ℕ} {n : String} {v : Var} (h : S.addVariableTo b n v = some T) :
    S.varOf b n = none := by
  unfold Storage.addVariableTo at h
  split at h
  · simp at h
  · rename_i hn; simpa using hn

theorem inv_addVariableTo {S T : Storage} (hS : Inv S) {b : ℕ} {n : String} {v : Var}
    (h : S.addVariableTo b n v = some T) : Inv T := by
  obtain ⟨hc, hl⟩ := addVariableTo_cursor h
  refine inv_congr hS hl (by rw [hc, hl]; exact hS.cursor) ?_ ?_
  · intro d B hB
    rw [addVariableTo_blocks h] at hB
    split at hB
    · rename_i hbd
      subst hbd
      rcases hA : S.blocks[b]? with _ | A
      · rw [hA] at hB; simp at hB
      · rw [hA] at hB
        simp only [Option.map_some, Option.some.injEq] at hB
        subst hB
        have hn := addVariableTo_new h
        unfold Storage.varOf at hn
        rw [hA, Option.bind_some, find_none] at hn
        simp only [List.map_append, List.map_cons, List.map_nil]
        exact List.nodup_append.mpr ⟨hS.vars b A hA, by simp, by
          intro a ha a' ha'; simp at ha'; subst ha'; exact fun e => hn (e ▸ ha)⟩
    · exact hS.vars d B hB
  · intro d B hB
    rw [addVariableTo_blocks h] at hB
    split at hB
    · rcases hA : S.blocks[d]? with _ | A
      · rw [hA] at hB; simp at hB
      · rw [hA] at hB
        simp only [Option.map_some, Option.some.injEq] at hB
        subst hB
        exact ⟨A, rfl, rfl, rfl, rfl, rfl⟩
    · exact ⟨B, hB, rfl, rfl, rfl, rfl⟩

theorem createBlock_blocks {S T : Storage} {n c : String} (h : S.createBlock n c = some T) (d : ℕ) :
    T.blocks[d]? =
      if d = S.blocks.length then
        some { name := n, className := c, parent := some S.cursor, children := [], vars := [], childrenByName := [] }
      else if S.cursor = d then S.blocks[d]?.map (fun B =>
        { B with childrenByName := B.childrenByName ++ [(n, S.blocks.length)], children := B.children ++ [S.blocks.length] })
      else S.blocks[d]? := by
  unfold Storage.createBlock at h
  split at h
  · simp at h
  · simp only [Option.some.injEq] at h
    subst h
    simp only [List.getElem?_append, List.length_modify]
    by_cases hd : d < S.blocks.length
    · rw [if_pos hd, if_neg (by omega), modify_get]
    · rw [if_neg hd]
      by_cases he : d = S.blocks.length
      · subst he; simp
      · rw [if_neg he]
        have h1 : S.blocks[d]? = none := by rw [List.getElem?_eq_none_iff]; omega
        rw [h1]
        simp only [Option.map_none, ite_self, List.getElem?_eq_none_iff, List.length_singleton]
        omega

theorem createBlock_cursor {S T : Storage} {n c : String} (h : S.createBlock n c = some T) :
    T.cursor = S.blocks.length ∧ T.blocks.length = S.blocks.length + 1 ∧ S.childOf S.cursor n = none := by
  unfold Storage.createBlock at h
  split at h
  · simp at h
  · rename_i hn
    simp only [Option.some.injEq] at h
    subst h
    simpa using hn

theorem createBlock_old {S T : Storage} {n c : String} (h : S.createBlock n c = some T) {d : ℕ} {A : BlockVars}
    (hA : S.blocks[d]? = some A) : ∃ B : BlockVars, T.blocks[d]? = some B ∧ B.name = A.name ∧ B.parent = A.parent ∧ B.vars = A.vars ∧
      B.className = A.className ∧
      B.childrenByName = (if S.cursor = d then A.childrenByName ++ [(n, S.blocks.length)] else A.childrenByName) ∧
      B.children = (if S.cursor = d then A.children ++ [S.blocks.length] else A.children) := by
  have hlt := (List.getElem?_eq_some_iff.mp hA).1
  rw [createBlock_blocks h, if_neg (by omega), hA]
  by_cases hc : S.cursor = d
  · simp [hc]
  · simp [hc]

theorem createBlock_cases {S T : Storage} {n c : String} (h : S.createBlock n c = some T) {d : ℕ} {B : BlockVars}
    (hB : T.blocks[d]? = some B) :
    (d = S.blocks.length ∧ B = { name := n, className := c, parent := some S.cursor, children := [], vars := [], childrenByName := [] })
    ∨ (∃ A : BlockVars, S.blocks[d]? = some A ∧ B.name = A.name ∧ B.parent = A.parent ∧ B.vars = A.vars ∧
      B.childrenByName = (if S.cursor = d then A.childrenByName ++ [(n, S.blocks.length)] else A.childrenByName) ∧
      B.children = (if S.cursor = d then A.children ++ [S.blocks.length] else A.children)) := by
  rw [createBlock_blocks h] at hB
  split at hB
  · rename_i hd
    left; exact ⟨hd, by simpa using hB.symm⟩
  · right
    rcases hA : S.blocks[d]? with _ | A
    · rw [hA] at hB; simp at hB
    · refine ⟨A, rfl, ?_⟩
      rw [hA] at hB
      split at hB
      · rename_i hc
        simp only [Option.map_some, Option.some.injEq] at hB
        subst hB
        simp [hc]
      · rename_i hc
        simp only [Option.some.injEq] at hB
        subst hB
        simp [hc]

theorem createBlock_childNamed {S T : Storage} {n c : String} (h : S.createBlock n c = some T) (hS : Inv S)
    (b : ℕ) (m : String) (d : ℕ) :
    ChildNamed T b m d ↔ ChildNamed S b m d ∨ (b = S.cursor ∧ m = n ∧ d = S.blocks.length) := by
  constructor
  · rintro ⟨B, hB, hp, hn⟩
    rcases createBlock_cases h hB with ⟨rfl, rfl⟩ | ⟨A, hA, h1, h2, -⟩
    · right
      simp only [Option.some.injEq] at hp
      exact ⟨hp.symm, hn.symm, rfl⟩
    · left; exact ⟨A, hA, by rw [← h2]; exact hp, by rw [← h1]; exact hn⟩
  · rintro (⟨A, hA, hp, hn⟩ | ⟨rfl, rfl, rfl⟩)
    · obtain ⟨B, hB, h1, h2, -⟩ := createBlock_old h hA
      exact ⟨B, hB, by rw [h2]; exact hp, by rw [h1]; exact hn⟩
    · refine ⟨_, by rw [createBlock_blocks h, if_pos rfl], rfl, rfl⟩

theorem createBlock_directlyIn {S T : Storage} {n c : String} (h : S.createBlock n c = some T) (p b : ℕ) :
    DirectlyIn T p b ↔ DirectlyIn S p b ∨ (p = S.cursor ∧ b = S.blocks.length) := by
  constructor
  · rintro ⟨B, hB, hp⟩
    rcases createBlock_cases h hB with ⟨rfl, rfl⟩ | ⟨A, hA, h1, h2, -⟩
    · right
      simp only [Option.some.injEq] at hp
      exact ⟨hp.symm, rfl⟩
    · left; exact ⟨A, hA, by rw [← h2]; exact hp⟩
  · rintro (⟨A, hA, hp⟩ | ⟨rfl, rfl⟩)
    · obtain ⟨B, hB, h1, h2, -⟩ := createBlock_old h hA
      exact ⟨B, hB, by rw [h2]; exact hp⟩
    · refine ⟨_, by rw [createBlock_blocks h, if_pos rfl], rfl⟩

theorem inv_createBlock {S T : Storage} (hS : Inv S) {n c : String} (h : S.createBlock n c = some T) : Inv T := by
  obtain ⟨hc, hl, hnew⟩ := createBlock_cursor h
  have hcur := hS.cursor
  refine ⟨by omega, ?_, ?_, ?_, ?_, ?_, ?_, ?_⟩
  · rcases ho : T.parentOf 0 with _ | p
    · rfl
    · rw [← directlyIn_iff, createBlock_directlyIn h, directlyIn_iff, hS.root] at ho
      simp only [reduceCtorEq, false_or] at ho
      omega
  · intro b p hp
    rcases (createBlock_directlyIn h p b).mp hp with hp | ⟨rfl, rfl⟩
    · exact hS.parent b p hp
    · exact hcur
  · intro b h0 h1
    by_cases hb : b = S.blocks.length
    · exact ⟨S.cursor, (createBlock_directlyIn h _ _).mpr (Or.inr ⟨rfl, hb⟩)⟩
    · obtain ⟨p, hp⟩ := hS.some_parent b h0 (by omega)
      exact ⟨p, (createBlock_directlyIn h _ _).mpr (Or.inl hp)⟩
  · intro b B hB
    rcases createBlock_cases h hB with ⟨-, rfl⟩ | ⟨A, hA, -, -, h3, -⟩
    · simp
    · rw [h3]; exact hS.vars b A hA
  · intro b B hB
    rcases createBlock_cases h hB with ⟨-, rfl⟩ | ⟨A, hA, -, -, -, h4, -⟩
    · simp
    · rw [h4]
      split
      · rename_i hcb
        subst hcb
        unfold Storage.childOf at hnew
        rw [hA, Option.bind_some, find_none] at hnew
        simp only [List.map_append, List.map_cons, List.map_nil]
        exact List.nodup_append.mpr ⟨hS.names _ A hA, by simp, by
          intro a ha a' ha'; simp at ha'; subst ha'; exact fun e => hnew (e ▸ ha)⟩
      · exact hS.names b A hA
  · intro b B hB m d
    rw [createBlock_childNamed h hS]
    rcases createBlock_cases h hB with ⟨rfl, rfl⟩ | ⟨A, hA, -, -, -, h4, -⟩
    · simp only [List.not_mem_nil, false_iff, not_or, not_and]
      refine ⟨?_, fun e => by omega⟩
      rintro ⟨C, hC, hp, -⟩
      have := hS.parent d _ ⟨C, hC, hp⟩
      have := (List.getElem?_eq_some_iff.mp hC).1
      omega
    · rw [h4, ← hS.child b A hA]
      split
      · rename_i hcb
        simp [hcb]
      · rename_i hcb
        simp [Ne.symm hcb]
  · intro b B hB
    rcases createBlock_cases h hB with ⟨-, rfl⟩ | ⟨A, hA, -, -, -, h4, h5⟩
    · simp
    · rw [h4, h5]
      split
      · simp [hS.children b A hA]
      · exact hS.children b A hA

theorem inv_cursor {S : Storage} (hS : Inv S) (c : ℕ) (hc : c < S.blocks.length) : Inv { S with cursor := c } :=
  ⟨hc, hS.root, hS.parent, hS.some_parent, hS.vars, hS.names, hS.child, hS.children⟩

theorem inv_cursorUp {S : Storage} (hS : Inv S) : Inv S.cursorUp := by
  refine inv_cursor hS _ ?_
  rcases hp : S.parentOf S.cursor with _ | p
  · exact hS.pos
  · have := hS.parent _ _ ((directlyIn_iff S p S.cursor).mpr hp)
    have := hS.cursor
    simp only [Option.getD_some]
    omega

theorem inv_step {S : Storage} (hS : Inv S) (op : Storage.Op) : Inv (S.step op) := by
  cases op with
  | addVariable n v =>
    unfold Storage.step
    rcases h : S.addVariable n v with _ | T
    · simp only [h]; exact hS
    · simp only [h]; exact inv_addVariableTo hS h
  | addVariableTo b n v =>
    unfold Storage.step
    rcases h : S.addVariableTo b n v with _ | T
    · simp only [h]; exact hS
    · simp only [h]; exact inv_addVariableTo hS h
  | createBlock n c =>
    unfold Storage.step
    rcases h : S.createBlock n c with _ | T
    · simp only [h]; exact hS
    · simp only [h]; exact inv_createBlock hS h
  | cursorUp => exact inv_cursorUp hS
  | resetCursor => exact inv_cursor hS 0 hS.pos

theorem inv_run {S : Storage} (hS : Inv S) (ops : List Storage.Op) : Inv (S.run ops) := by
  induction ops generalizing S with
  | nil => exact hS
  | cons op ops ih => exact ih (inv_step hS op)

/-! ### lookup -/

theorem encloses_le {S : Storage} (h : Inv S) {e b : ℕ} (he : Encloses S e b) : e ≤ b := by
  induction he with
  | refl => exact le_rfl
  | tail _ h2 ih => have := h.parent _ _ h2; omega

theorem encloses_cases {S : Storage} {e b : ℕ} :
    Encloses S e b ↔ e = b ∨ ∃ p, DirectlyIn S p b ∧ Encloses S e p := by
  constructor
  · intro h
    rcases ReflTransGen.cases_tail h with h | ⟨p, hp, hb⟩
    · exact Or.inl h.symm
    · exact Or.inr ⟨p, hb, hp⟩
  · rintro (rfl | ⟨p, hp, he⟩)
    · exact ReflTransGen.refl
    · exact ReflTransGen.tail he hp

theorem getDown_iff {S : Storage} (h : Inv S) (path : List String) (b : ℕ) (hb : b < S.blocks.length) (v : Var) :
    S.getDown path b = some v ↔ Leads S b path v := by
  induction path generalizing b with
  | nil =>
    simp only [Storage.getDown, reduceCtorEq, false_iff]
    intro hl; cases hl
  | cons n rest ih =>
    unfold Storage.getDown
    by_cases hr : rest = []
    · subst hr
      rw [if_neg (by simp), varOf_iff h]
      constructor
      · exact .var
      · intro hl
        cases hl with
        | var h => exact h
        | child _ h => cases h
    · rw [if_pos hr]
      rcases hc : S.childOf b n with _ | c
      · simp only [reduceCtorEq, false_iff]
        intro hl
        cases hl with
        | var _ => exact hr rfl
        | child h1 h2 => rw [← childOf_iff h b hb, hc] at h1; simp at h1
      · have h1 := (childOf_iff h b hb n c).mp hc
        simp only
        rw [ih c (childNamed_lt h1)]
        constructor
        · exact .child h1
        · intro hl
          cases hl with
          | var _ => exact absurd rfl hr
          | child h1' h2 =>
            rw [← childOf_iff h b hb, hc, Option.some.injEq] at h1'
            rw [h1']; exact h2

theorem resolves_here {S : Storage} (h : Inv S) {b : ℕ} {path : List String} (hm : Matches S b path) (v : Var) :
    Resolves S b path v ↔ Leads S b path v := by
  constructor
  · rintro ⟨e, he, -, h2, h3⟩
    have := encloses_le h (h2 b ReflTransGen.refl hm)
    have := encloses_le h he
    have : e = b := by omega
    rw [← this]; exact h3
  · intro hl
    exact ⟨b, ReflTransGen.refl, hm, fun e' h1 _ => h1, hl⟩

theorem resolves_up {S : Storage} {b : ℕ} {path : List String} (hm : ¬ Matches S b path) (v : Var) :
    Resolves S b path v ↔ ∃ p, DirectlyIn S p b ∧ Resolves S p path v := by
  constructor
  · rintro ⟨e, he, h1, h2, h3⟩
    rcases encloses_cases.mp he with rfl | ⟨p, hp, hep⟩
    · exact absurd h1 hm
    · refine ⟨p, hp, e, hep, h1, ?_, h3⟩
      intro e' he' hm'
      exact h2 e' (ReflTransGen.tail he' hp) hm'
  · rintro ⟨p, hp, e, he, h1, h2, h3⟩
    refine ⟨e, ReflTransGen.tail he hp, h1, ?_, h3⟩
    intro e' he' hm'
    rcases encloses_cases.mp he' with rfl | ⟨q, hq, heq⟩
    · exact absurd hm' hm
    · rw [directlyIn_iff] at hp hq
      rw [hp, Option.some.injEq] at hq
      subst hq
      exact h2 e' heq hm'

theorem getUp_iff {S : Storage} (h : Inv S) (path : List String) (n : ℕ) (b : ℕ) (hbn : b < n)
    (hb : b < S.blocks.length) (v : Var) : S.getUp path n b = some v ↔ Resolves S b path v := by
  induction n generalizing b with
  | zero => omega
  | succ n ih =>
    have hup : ¬ Matches S b path → ((match S.parentOf b with
        | some p => S.getUp path n p
        | none => none) = some v ↔ Resolves S b path v) := by
      intro hm
      rw [resolves_up hm]
      rcases hp : S.parentOf b with _ | p
      · simp only [directlyIn_iff, hp]; simp
      · have := h.parent b p ((directlyIn_iff S p b).mpr hp)
        simp only [directlyIn_iff, hp, Option.some.injEq, exists_eq_left']
        exact ih p (by omega) (by omega)
    unfold Storage.getUp
    cases path with
    | nil =>
      simp only [reduceCtorEq, false_iff]
      rintro ⟨e, -, h1, -⟩
      exact h1
    | cons m rest =>
      simp only
      by_cases hr : rest = []
      · subst hr
        rw [if_neg (by simp)]
        rcases hv : S.varOf b m with _ | w
        · simp only
          refine hup ?_
          rintro ⟨w, hw⟩
          rw [← varOf_iff h, hv] at hw
          simp at hw
        · have hw := (varOf_iff h b m w).mp hv
          simp only [Option.some.injEq]
          rw [resolves_here h (show Matches S b [m] from ⟨w, hw⟩)]
          constructor
          · rintro rfl; exact .var hw
          · intro hl
            cases hl with
            | var h' =>
              rw [← varOf_iff h, hv, Option.some.injEq] at h'; exact h'
            | child _ h' => cases h'
      · rw [if_pos hr]
        obtain ⟨m', rest', rfl⟩ := List.exists_cons_of_ne_nil hr
        rcases hc : S.childOf b m with _ | c
        · simp only
          refine hup ?_
          rintro ⟨c, hc'⟩
          rw [← childOf_iff h b hb, hc] at hc'
          simp at hc'
        · have hcn := (childOf_iff h b hb m c).mp hc
          simp only
          rw [getDown_iff h _ _ (childNamed_lt hcn), resolves_here h (show Matches S b (m :: m' :: rest') from ⟨c, hcn⟩)]
          constructor
          · exact .child hcn
          · intro hl
            cases hl with
            | child h1 h2 =>
              rw [← childOf_iff h b hb, hc, Option.some.injEq] at h1
              rw [h1]; exact h2

theorem getVariable_iff {S : Storage} (h : Inv S) (b : ℕ) (hb : b < S.blocks.length) (path : List String) (name : String)
    (hw : Written ':' path name) (v : Var) : S.getVariable b name = some v ↔ Resolves S b path v := by
  unfold Storage.getVariable
  rw [splitName_written _ _ _ hw]
  exact getUp_iff h path _ b hb hb v

/-! ### changes -/

theorem addVariableTo_directlyIn {S T : Storage} {c : ℕ} {n : String} {v : Var} (h : S.addVariableTo c n v = some T)
    (p b : ℕ) : DirectlyIn T p b ↔ DirectlyIn S p b := by
  unfold DirectlyIn
  rw [addVariableTo_blocks h]
  split
  · cases S.blocks[b]? <;> simp
  · rfl

theorem addVariableTo_encloses {S T : Storage} {c : ℕ} {n : String} {v : Var} (h : S.addVariableTo c n v = some T)
    (e b : ℕ) : Encloses T e b ↔ Encloses S e b := by
  have : DirectlyIn T = DirectlyIn S := by
    funext p b; exact propext (addVariableTo_directlyIn h p b)
  unfold Encloses; rw [this]

theorem addVariableTo_childNamed {S T : Storage} {c : ℕ} {n : String} {v : Var} (h : S.addVariableTo c n v = some T)
    (b : ℕ) (m : String) (d : ℕ) : ChildNamed T b m d ↔ ChildNamed S b m d := by
  unfold ChildNamed
  rw [addVariableTo_blocks h]
  split
  · cases S.blocks[d]? <;> simp
  · rfl

theorem addVariableTo_declares {S T : Storage} {c : ℕ} {n : String} {v : Var} (h : S.addVariableTo c n v = some T)
    (b : ℕ) (m : String) (w : Var) :
    Declares T b m w ↔ Declares S b m w ∨ (b = c ∧ b < S.blocks.length ∧ m = n ∧ w = v) := by
  unfold Declares
  rw [addVariableTo_blocks h]
  split
  · rename_i hb
    subst hb
    rcases hA : S.blocks[c]? with _ | A
    · rw [List.getElem?_eq_none_iff] at hA
      simp; omega
    · have := (List.getElem?_eq_some_iff.mp hA).1
      simp [this]
  · rename_i hb
    simp [Ne.symm hb]

theorem matches_congr {S T : Storage} {b : ℕ} (hd : ∀ m, (∃ w, Declares T b m w) ↔ ∃ w, Declares S b m w)
    (hc : ∀ m, (∃ d, ChildNamed T b m d) ↔ ∃ d, ChildNamed S b m d) (path : List String) :
    Matches T b path ↔ Matches S b path := by
  match path with
  | [] => exact Iff.rfl
  | [m] => exact hd m
  | m :: _ :: _ => exact hc m

theorem leads_mono {S T : Storage} (hd : ∀ b m w, Declares S b m w → Declares T b m w)
    (hc : ∀ b m d, ChildNamed S b m d → ChildNamed T b m d) {b : ℕ} {path : List String} {w : Var} (h : Leads S b path w) :
    Leads T b path w := by
  induction h with
  | var h => exact .var (hd _ _ _ h)
  | child h _ ih => exact .child (hc _ _ _ h) ih

theorem createBlock_declares {S T : Storage} {n c : String} (h : S.createBlock n c = some T) (b : ℕ) (m : String) (w : Var) :
    Declares T b m w ↔ Declares S b m w := by
  constructor
  · rintro ⟨B, hB, hm⟩
    rcases createBlock_cases h hB with ⟨-, rfl⟩ | ⟨A, hA, -, -, h3, -⟩
    · simp at hm
    · exact ⟨A, hA, by rw [← h3]; exact hm⟩
  · rintro ⟨A, hA, hm⟩
    obtain ⟨B, hB, -, -, h3, -⟩ := createBlock_old h hA
    exact ⟨B, hB, by rw [h3]; exact hm⟩

theorem createBlock_encloses {S T : Storage} {n c : String} (hS : Inv S) (h : S.createBlock n c = some T) (e b : ℕ)
    (hb : b < S.blocks.length) : Encloses T e b ↔ Encloses S e b := by
  constructor
  · intro he
    induction he with
    | refl => exact ReflTransGen.refl
    | tail h1 h2 ih =>
      rcases (createBlock_directlyIn h _ _).mp h2 with h2 | ⟨-, h2⟩
      · exact ReflTransGen.tail (ih (by have := hS.parent _ _ h2; omega)) h2
      · omega
  · intro he
    induction he with
    | refl => exact ReflTransGen.refl
    | tail h1 h2 ih =>
      exact ReflTransGen.tail (ih (by have := hS.parent _ _ h2; omega)) ((createBlock_directlyIn h _ _).mpr (Or.inl h2))

theorem leads_plain {S : Storage} {b : ℕ} {n : String} {v : Var} : Leads S b [n] v ↔ Declares S b n v := by
  constructor
  · intro h
    cases h with
    | var h => exact h
    | child _ h => cases h
  · exact .var

theorem encloses_lt {S : Storage} (h : Inv S) {e b : ℕ} (he : Encloses S e b) (hb : b < S.blocks.length) :
    e < S.blocks.length := lt_of_le_of_lt (encloses_le h he) hb

theorem step_declares {S : Storage} (hS : Inv S) (op : Storage.Op) (b : ℕ) (n : String) (v : Var) (h : Declares S b n v) :
    Declares (S.step op) b n v := by
  cases op with
  | addVariable m w =>
    unfold Storage.step
    rcases h' : S.addVariable m w with _ | T
    · simp only [h']; exact h
    · simp only [h']; exact (addVariableTo_declares h' b n v).mpr (Or.inl h)
  | addVariableTo c m w =>
    unfold Storage.step
    rcases h' : S.addVariableTo c m w with _ | T
    · simp only [h']; exact h
    · simp only [h']; exact (addVariableTo_declares h' b n v).mpr (Or.inl h)
  | createBlock m c =>
    unfold Storage.step
    rcases h' : S.createBlock m c with _ | T
    · simp only [h']; exact h
    · simp only [h']; exact (createBlock_declares h' b n v).mpr h
  | cursorUp => exact h
  | resetCursor => exact h

theorem step_childNamed {S : Storage} (hS : Inv S) (op : Storage.Op) (b : ℕ) (n : String) (d : ℕ) (h : ChildNamed S b n d) :
    ChildNamed (S.step op) b n d := by
  cases op with
  | addVariable m w =>
    unfold Storage.step
    rcases h' : S.addVariable m w with _ | T
    · simp only [h']; exact h
    · simp only [h']; exact (addVariableTo_childNamed h' b n d).mpr h
  | addVariableTo c m w =>
    unfold Storage.step
    rcases h' : S.addVariableTo c m w with _ | T
    · simp only [h']; exact h
    · simp only [h']; exact (addVariableTo_childNamed h' b n d).mpr h
  | createBlock m c =>
    unfold Storage.step
    rcases h' : S.createBlock m c with _ | T
    · simp only [h']; exact h
    · simp only [h']; exact (createBlock_childNamed h' hS b n d).mpr (Or.inl h)
  | cursorUp => exact h
  | resetCursor => exact h

theorem run_declares {S : Storage} (hS : Inv S) (ops : List Storage.Op) (b : ℕ) (n : String) (v : Var) (h : Declares S b n v) :
    Declares (S.run ops) b n v := by
  induction ops generalizing S with
  | nil => exact h
  | cons op ops ih => exact ih (inv_step hS op) (step_declares hS op b n v h)

theorem run_childNamed {S : Storage} (hS : Inv S) (ops : List Storage.Op) (b : ℕ) (n : String) (d : ℕ)
    (h : ChildNamed S b n d) : ChildNamed (S.run ops) b n d := by
  induction ops generalizing S with
  | nil => exact h
  | cons op ops ih => exact ih (inv_step hS op) (step_childNamed hS op b n d h)

theorem declares_lt {S : Storage} {b : ℕ} {n : String} {v : Var} (h : Declares S b n v) : b < S.blocks.length := by
  obtain ⟨B, hB, -⟩ := h
  exact (List.getElem?_eq_some_iff.mp hB).1

end Schnek.Lemma.Vars
