import Verif.Lemma.Variables

/-!
# Variables and their scopes (C38 - C40)
-/

namespace Schnek.Props

open Schnek.Deck Schnek.Spec Schnek.Lemma.Vars Relation

theorem inv_of_reachable {S : Storage} (h : Reachable S) : Inv S := by
  obtain ⟨n, c, ops, rfl⟩ := h
  exact inv_run (inv_create n c) ops

/-- C38: a name or path used in a block means the variable that the scopes say; the lookup fails if there is none. -/
theorem C38_lookup (S : Storage) (hS : Reachable S) (b : ℕ) (hb : b < S.blocks.length) (path : List String) (name : String)
    (hw : Written ':' path name) (v : Var) : S.getVariable b name = some v ↔ Resolves S b path v :=
  getVariable_iff (inv_of_reachable hS) b hb path name hw v

/-- C38: declaring a variable in a block changes what a plain name means only if it is that name and only for that block and the
blocks in it. What a path meant is not changed at all. -/
theorem C38_declaration (S T : Storage) (hS : Reachable S) (c : ℕ) (n : String) (v : Var)
    (hT : S.addVariableTo c n v = some T) (b : ℕ) (hb : b < S.blocks.length) :
    (∀ m name, Written ':' [m] name → (m ≠ n ∨ ¬ Encloses S c b) → T.getVariable b name = S.getVariable b name) ∧
    (∀ path name w, Written ':' path name → 2 ≤ path.length → S.getVariable b name = some w →
      T.getVariable b name = some w) := by
  have iS := inv_of_reachable hS
  have iT := inv_addVariableTo iS hT
  have hl := (addVariableTo_cursor hT).2
  constructor
  · intro m name hw hor
    apply Option.ext
    intro w
    rw [getVariable_iff iS b hb _ _ hw, getVariable_iff iT b (by omega) _ _ hw]
    have hD : ∀ e, Encloses S e b → ∀ w, Declares T e m w ↔ Declares S e m w := by
      intro e he w
      rw [addVariableTo_declares hT]
      constructor
      · rintro (h | ⟨rfl, -, rfl, -⟩)
        · exact h
        · rcases hor with h | h
          · exact absurd rfl h
          · exact absurd he h
      · exact Or.inl
    unfold Resolves
    simp only [addVariableTo_encloses hT, leads_plain]
    constructor
    · rintro ⟨e, he, ⟨x, hx⟩, h2, h3⟩
      refine ⟨e, he, ⟨x, (hD e he x).mp hx⟩, ?_, (hD e he w).mp h3⟩
      rintro e' he' ⟨y, hy⟩
      exact h2 e' he' ⟨y, (hD e' he' y).mpr hy⟩
    · rintro ⟨e, he, ⟨x, hx⟩, h2, h3⟩
      refine ⟨e, he, ⟨x, (hD e he x).mpr hx⟩, ?_, (hD e he w).mpr h3⟩
      rintro e' he' ⟨y, hy⟩
      exact h2 e' he' ⟨y, (hD e' he' y).mp hy⟩
  · intro path name w hw hlen
    rw [getVariable_iff iS b hb _ _ hw, getVariable_iff iT b (by omega) _ _ hw]
    have hM : ∀ e, Matches T e path ↔ Matches S e path := by
      intro e
      match path, hlen with
      | m :: _ :: _, _ =>
        simp only [Matches, addVariableTo_childNamed hT]
    unfold Resolves
    simp only [addVariableTo_encloses hT, hM]
    rintro ⟨e, he, h1, h2, h3⟩
    exact ⟨e, he, h1, h2, leads_mono (fun b m w h => (addVariableTo_declares hT b m w).mpr (Or.inl h))
      (fun b m d h => (addVariableTo_childNamed hT b m d).mpr h) h3⟩

/-- C38: opening a block does not change what a plain name means in the blocks that were there before, nor what a path means
outside the block in which it was opened. -/
theorem C38_new_block (S T : Storage) (hS : Reachable S) (n c : String) (hT : S.createBlock n c = some T) (b : ℕ)
    (hb : b < S.blocks.length) (path : List String) (name : String) (hw : Written ':' path name) (w : Var)
    (h : S.getVariable b name = some w) (hpath : path.length = 1 ∨ ¬ Encloses S S.cursor b) :
    T.getVariable b name = some w := by
  have iS := inv_of_reachable hS
  have iT := inv_createBlock iS hT
  have hl := (createBlock_cursor hT).2.1
  rw [getVariable_iff iS b hb _ _ hw] at h
  rw [getVariable_iff iT b (by omega) _ _ hw]
  obtain ⟨e, he, h1, h2, h3⟩ := h
  have hM : ∀ e, Encloses S e b → (Matches T e path ↔ Matches S e path) := by
    intro e he
    match path, hpath, hw.2.1 with
    | [m], _, _ => simp only [Matches, createBlock_declares hT]
    | m :: _ :: _, hp, _ =>
      simp only [Matches, createBlock_childNamed hT iS]
      have hne : e ≠ S.cursor := by
        rcases hp with hp | hp
        · simp at hp
        · rintro rfl; exact hp he
      simp [hne]
  refine ⟨e, (createBlock_encloses iS hT e b hb).mpr he, (hM e he).mpr h1, ?_, ?_⟩
  · intro e' he' hm'
    have he'' := (createBlock_encloses iS hT e' b hb).mp he'
    exact (createBlock_encloses iS hT e' e (encloses_lt iS he hb)).mpr (h2 e' he'' ((hM e' he'').mp hm'))
  · exact leads_mono (fun b m w h => (createBlock_declares hT b m w).mpr h)
      (fun b m d h => (createBlock_childNamed hT iS b m d).mpr (Or.inl h)) h3

/-- C39, partial: for a name without separators, `exists` is right about the variables of the block itself, and what it says exists
can be found. -/
theorem C39_own_block_partial (S : Storage) (hS : Reachable S) (b : ℕ) (hb : b < S.blocks.length) (name : String)
    (hdot : '.' ∉ name.toList) (hcol : ':' ∉ name.toList) :
    (S.exists? b name = some true ↔ ∃ v, Declares S b name v) ∧
    (S.exists? b name = some true → ∃ v, S.getVariable b name = some v) := by
  have iS := inv_of_reachable hS
  have hw : Written '.' [name] name := ⟨by simp [List.intercalate], by simp, by simpa using hdot⟩
  have hw' : Written ':' [name] name := ⟨by simp [List.intercalate], by simp, by simpa using hcol⟩
  have h1 : S.exists? b name = some true ↔ ∃ v, Declares S b name v := by
    unfold Storage.exists?
    rw [splitName_written _ _ _ hw]
    unfold Storage.existsPath
    rw [if_neg (by simp)]
    simp only [← varOf_iff iS]
    rcases S.varOf b name with _ | v
    · simp
    · simp
  refine ⟨h1, ?_⟩
  rw [h1]
  rintro ⟨v, hv⟩
  refine ⟨v, (getVariable_iff iS b hb _ _ hw' v).mpr ?_⟩
  exact (resolves_here iS (show Matches S b [name] from ⟨v, hv⟩) v).mpr (.var hv)

/-- C39 is violated: `exists` denies every variable that is declared in an enclosing block only, although it is found. -/
theorem C39_violated_enclosing (S : Storage) (hS : Reachable S) (b : ℕ) (hb : b < S.blocks.length) (name : String)
    (hdot : '.' ∉ name.toList) (hcol : ':' ∉ name.toList) (v : Var) (hv : S.getVariable b name = some v)
    (hown : ∀ v, ¬ Declares S b name v) : S.exists? b name = some false := by
  have iS := inv_of_reachable hS
  have hw : Written '.' [name] name := ⟨by simp [List.intercalate], by simp, by simpa using hdot⟩
  have hw' : Written ':' [name] name := ⟨by simp [List.intercalate], by simp, by simpa using hcol⟩
  rw [getVariable_iff iS b hb _ _ hw', resolves_up (by rintro ⟨w, hw⟩; exact hown w hw)] at hv
  obtain ⟨p, hp, -⟩ := hv
  rw [directlyIn_iff] at hp
  unfold Storage.exists?
  rw [splitName_written _ _ _ hw]
  unfold Storage.existsPath
  rw [if_neg (by simp)]
  rcases hvo : S.varOf b name with _ | w
  · simp [hp]
  · exact absurd ((varOf_iff iS b name w).mp hvo) (hown w)

/-- C39 is violated: asking the root block for any name it does not have dereferences a null pointer. -/
theorem C39_violated_null (S : Storage) (hS : Reachable S) (name : String) (hdot : '.' ∉ name.toList)
    (hown : ∀ v, ¬ Declares S 0 name v) : S.exists? 0 name = none := by
  have iS := inv_of_reachable hS
  have hw : Written '.' [name] name := ⟨by simp [List.intercalate], by simp, by simpa using hdot⟩
  unfold Storage.exists?
  rw [splitName_written _ _ _ hw]
  unfold Storage.existsPath
  rw [if_neg (by simp)]
  rcases hvo : S.varOf 0 name with _ | w
  · simp [iS.root]
  · exact absurd ((varOf_iff iS 0 name w).mp hvo) (hown w)

/-- C40: adding a variable is rejected exactly if the block has a variable of that name. Otherwise it is declared then, and all else
stays as it was. -/
theorem C40_variable (S : Storage) (hS : Reachable S) (n : String) (v : Var) :
    (S.addVariable n v = none ↔ ∃ w, Declares S S.cursor n w) ∧
    (∀ T, S.addVariable n v = some T → T.cursor = S.cursor ∧ T.blocks.length = S.blocks.length ∧
      (∀ b m w, Declares T b m w ↔ Declares S b m w ∨ (b = S.cursor ∧ m = n ∧ w = v)) ∧
      (∀ b m d, ChildNamed T b m d ↔ ChildNamed S b m d)) := by
  have iS := inv_of_reachable hS
  constructor
  · unfold Storage.addVariable Storage.addVariableTo
    simp only [← varOf_iff iS]
    rcases S.varOf S.cursor n with _ | w <;> simp
  · intro T hT
    obtain ⟨h1, h2⟩ := addVariableTo_cursor hT
    refine ⟨h1, h2, ?_, addVariableTo_childNamed hT⟩
    intro b m w
    rw [addVariableTo_declares hT]
    have := iS.cursor
    constructor
    · rintro (h | ⟨rfl, -, rfl, rfl⟩)
      · exact Or.inl h
      · exact Or.inr ⟨rfl, rfl, rfl⟩
    · rintro (h | ⟨rfl, rfl, rfl⟩)
      · exact Or.inl h
      · exact Or.inr ⟨rfl, this, rfl, rfl⟩

/-- C40: opening a block is rejected exactly if the current block has a block of that name. Otherwise there is a new, empty block of
that name in it, which is the current block then, and all else stays as it was. -/
theorem C40_block (S : Storage) (hS : Reachable S) (n c : String) :
    (S.createBlock n c = none ↔ ∃ d, ChildNamed S S.cursor n d) ∧
    (∀ T, S.createBlock n c = some T → T.blocks.length = S.blocks.length + 1 ∧ T.cursor = S.blocks.length ∧
      (∀ b m w, Declares T b m w ↔ Declares S b m w) ∧
      (∀ b m d, ChildNamed T b m d ↔ ChildNamed S b m d ∨ (b = S.cursor ∧ m = n ∧ d = S.blocks.length))) := by
  have iS := inv_of_reachable hS
  constructor
  · unfold Storage.createBlock
    simp only [← childOf_iff iS _ iS.cursor]
    rcases S.childOf S.cursor n with _ | w <;> simp
  · intro T hT
    obtain ⟨h1, h2, -⟩ := createBlock_cursor hT
    exact ⟨h2, h1, createBlock_declares hT, createBlock_childNamed hT iS⟩

/-- C40: names are unique; no later calls change or remove a declaration or a block, and a declaration is always found under its
plain name in its block. -/
theorem C40_persistent (S : Storage) (hS : Reachable S) (ops : List Storage.Op) :
    (∀ b n v w, Declares S b n v → Declares S b n w → v = w) ∧
    (∀ b n d d', ChildNamed S b n d → ChildNamed S b n d' → d = d') ∧
    (∀ b n v, Declares S b n v → Declares (S.run ops) b n v ∧
      ∀ name, Written ':' [n] name → (S.run ops).getVariable b name = some v) ∧
    (∀ b n d, ChildNamed S b n d → ChildNamed (S.run ops) b n d) := by
  have iS := inv_of_reachable hS
  refine ⟨?_, ?_, ?_, run_childNamed iS ops⟩
  · intro b n v w hv hw
    rw [← varOf_iff iS] at hv hw
    rw [hv] at hw
    exact Option.some.inj hw
  · intro b n d d' hd hd'
    have hb : b < S.blocks.length := by
      obtain ⟨C, hC, hp, -⟩ := hd
      have := iS.parent d b ⟨C, hC, hp⟩
      have := (List.getElem?_eq_some_iff.mp hC).1
      omega
    rw [← childOf_iff iS b hb] at hd hd'
    rw [hd] at hd'
    exact Option.some.inj hd'
  · intro b n v hv
    have h := run_declares iS ops b n v hv
    refine ⟨h, ?_⟩
    intro name hw
    have iR := inv_run iS ops
    rw [getVariable_iff iR b (declares_lt h) _ _ hw,
      resolves_here iR (show Matches (S.run ops) b [n] from ⟨v, h⟩)]
    exact .var h

/-! ### an example: `x` at the top, a block `a` with `y` and a block `b` with `x` in it -/

def scopeOps : List Storage.Op :=
  [.addVariable "x" 0, .createBlock "a" "A", .addVariable "y" 1, .createBlock "b" "B", .addVariable "x" 2]

def scopes : Storage := (Storage.create "root" "Root").run scopeOps

example : Reachable scopes := ⟨"root", "Root", scopeOps, rfl⟩
example : scopes.blocks.length = 3 ∧ scopes.cursor = 2 := by decide
example : scopes.getVariable 2 "x" = some 2 ∧ scopes.getVariable 1 "x" = some 0 ∧ scopes.getVariable 2 "y" = some 1 ∧
    scopes.getVariable 0 "y" = none ∧ scopes.getVariable 2 "a:y" = some 1 ∧ scopes.getVariable 0 "a:b:x" = some 2 ∧
    scopes.getVariable 2 "b:x" = some 2 ∧ scopes.getVariable 0 "a:x" = none := by decide +kernel
example : Written ':' ["a", "b", "x"] "a:b:x" := by
  refine ⟨by decide +kernel, by simp, by decide +kernel⟩
example : scopes.exists? 2 "x" = some true ∧ scopes.exists? 1 "x" = some false ∧ scopes.exists? 0 "y" = none := by
  decide +kernel
example : (scopes.addVariable "x" 3).isNone ∧ (scopes.addVariable "z" 3).isSome := by decide +kernel
example : (scopes.cursorUp.createBlock "b" "B").isNone ∧ (scopes.cursorUp.createBlock "c" "B").isSome := by decide +kernel

/-- C39 is violated: paths that are found do not exist, and paths that exist are not found. -/
theorem C39_violated_separator :
    ∃ S, Reachable S ∧ S.getVariable 0 "a:y" = some 1 ∧ S.exists? 1 "a:y" = some false ∧ S.exists? 0 "a:y" = none ∧
      S.exists? 0 "a.y" = some true ∧ S.getVariable 0 "a.y" = none :=
  ⟨scopes, ⟨"root", "Root", scopeOps, rfl⟩, by decide +kernel⟩

end Schnek.Props
