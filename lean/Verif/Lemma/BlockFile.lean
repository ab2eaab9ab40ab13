import Verif.Spec.BlockFile
import Verif.Lemma.TypedSettings
import Verif.Lemma.AssignedSettings
import Verif.Lemma.BlockNesting

/-!
# Lemmas on setup files with blocks made by a program
-/

namespace Schnek.Lemma.SettingsText

open Schnek.Scanner Schnek.Spec Schnek.Spec.Lexer Schnek.Lemma.Scanner Schnek.Lemma.Lexer
open Schnek.Spec.SettingsText Schnek.Lemma.Diag Schnek.Diagnostic Schnek.NumberText Schnek.Deck Schnek.Lemma.Deck

/-! ## the text -/

/-- the tokens -/
def itemTokens : Items → List (Kind × List Byte)
  | .nil => []
  | .setting n v rest => typedTokens (n, v) ++ itemTokens rest
  | .param n v rest => assignedTokens (n, v) ++ itemTokens rest
  | .block c n body rest =>
    [(.identifier, bytes c), (.identifier, bytes n), (.lbrace, [])] ++ (itemTokens body ++ ((.rbrace, []) :: itemTokens rest))

theorem reads_word {name : String} (hn : IsName name) {r : List Byte} {p : List (Kind × List Byte)} (hr : Reads r p) :
    Reads (bytes name ++ 32 :: r) ((.identifier, bytes name) :: p) := by
  obtain ⟨⟨a, w, hw, ha, hw'⟩, hc, hk, hlen⟩ := hn
  have r4 := reads_name ha hw' (by
    intro k hk' he
    rw [← hw, bytes_val hc] at he
    have : name = k := String.toList_inj.mp (List.map_injective_iff.mpr (fun x y hxy => Char.toNat_inj.mp hxy) he)
    exact hk (this ▸ hk')) (by
      have : (bytes name).length = name.length := by rw [bytes, List.length_map, String.length_toList]
      rw [hw] at this
      simp only [List.length_cons] at this
      show _ ≤ 128
      omega) (reads_blank (b := 32) (by decide) hr)
  rw [hw]
  exact r4

theorem reads_brace {b : Byte} {k : Kind} (h : (b = 123 ∧ k = .lbrace) ∨ (b = 125 ∧ k = .rbrace)) {r : List Byte}
    {p : List (Kind × List Byte)} (hr : Reads r p) : Reads (b :: 10 :: r) ((k, []) :: p) := by
  rcases h with ⟨rfl, rfl⟩ | ⟨rfl, rfl⟩
  · have := reads_token (u := []) (b := 123) (c := 10) (i := 1) (by decide +kernel) (by decide +kernel) (by decide) (by decide)
      (reads_blank (b := 10) (by decide) hr)
    simpa [useOf, patterns, emitted, plainToks] using this
  · have := reads_token (u := []) (b := 125) (c := 10) (i := 2) (by decide +kernel) (by decide +kernel) (by decide) (by decide)
      (reads_blank (b := 10) (by decide) hr)
    simpa [useOf, patterns, emitted, plainToks] using this

variable {classes : List (String × ClassDesc ℚ)} {restr : Bool} {ofInt : ℤ → ℚ}

theorem reads_items : ∀ (it : Items) {parent : String}, it.Fit ofInt classes restr parent → ∀ {r : List Byte} {p : List (Kind × List Byte)},
    Reads r p → Reads (it.text ++ r) (itemTokens it ++ p) := by
  intro it
  induction it with
  | nil => intro _ _ r p hr; exact hr
  | setting n v rest ih =>
    rintro parent ⟨h1, h2, -, h3⟩ r p hr
    show Reads (typedText (n, v) ++ rest.text ++ r) (typedTokens (n, v) ++ itemTokens rest ++ p)
    rw [List.append_assoc, List.append_assoc]
    exact reads_typed (s := (n, v)) h1 h2 (ih h3 hr)
  | param n v rest ih =>
    rintro parent ⟨h1, h2, -, -, h3⟩ r p hr
    show Reads (assignedText (n, v) ++ rest.text ++ r) (assignedTokens (n, v) ++ itemTokens rest ++ p)
    rw [List.append_assoc, List.append_assoc]
    exact reads_assigned (s := (n, v)) h1 h2 (ih h3 hr)
  | block c n body rest ih1 ih2 =>
    rintro parent ⟨h1, h2, -, -, -, h3, h4⟩ r p hr
    have r1 := reads_word h1 (reads_word h2 (reads_brace (Or.inl ⟨rfl, rfl⟩) (ih1 h3 (reads_brace (Or.inr ⟨rfl, rfl⟩) (ih2 h4 hr)))))
    have e : (Items.block c n body rest).text ++ r =
        bytes c ++ 32 :: (bytes n ++ 32 :: 123 :: 10 :: (body.text ++ 125 :: 10 :: (rest.text ++ r))) := by
      show (bytes c ++ bytes " " ++ bytes n ++ bytes " {\n" ++ body.text ++ bytes "}\n" ++ rest.text) ++ r = _
      rw [show bytes " " = [32] by decide +kernel, show bytes " {\n" = [32, 123, 10] by decide +kernel,
        show bytes "}\n" = [125, 10] by decide +kernel]
      simp
    rw [e]
    simpa [itemTokens] using r1

/-! ## the statements -/

/-- the statements -/
def itemStmts : Items → List (Stmt ℚ)
  | .nil => []
  | .setting n v rest => typedStmt (n, v) :: itemStmts rest
  | .param n v rest => assignedStmt (n, v) :: itemStmts rest
  | .block c n body rest => .start c n :: (itemStmts body ++ .stop :: itemStmts rest)

theorem ident_meaning (O : FloatOps ℚ) {n : String} (hn : IsName n) :
    plainMeaning (withText O) (.identifier, bytes n) = some (.expr (.ident n)) := by
  show some (DeckToken.expr (Token.ident (textOf (bytes n)))) = _
  rw [textOf_bytes hn.2.1]

/-- these tokens are these statements -/
def DeckOf (O : FloatOps ℚ) (toks : List Tok) (deck : List (Stmt ℚ)) : Prop :=
  ∃ parts, toks = parts.flatten ∧ List.Forall₂ (IsStatement (withText O)) parts deck ∧ ∀ part ∈ parts, part.length ≤ 98

theorem deckOf_append {O : FloatOps ℚ} {t1 t2 : List Tok} {d1 d2 : List (Stmt ℚ)} (h1 : DeckOf O t1 d1) (h2 : DeckOf O t2 d2) :
    DeckOf O (t1 ++ t2) (d1 ++ d2) := by
  obtain ⟨p1, rfl, a1, a2⟩ := h1
  obtain ⟨p2, rfl, b1, b2⟩ := h2
  refine ⟨p1 ++ p2, by simp, List.rel_append a1 b1, ?_⟩
  intro part hm
  rcases List.mem_append.mp hm with hm | hm
  · exact a2 part hm
  · exact b2 part hm

theorem deckOf_one {O : FloatOps ℚ} {t : List Tok} {st : Stmt ℚ} {p : List (Kind × List Byte)} (h : plainToks t = p) (hl : p.length ≤ 98)
    {ts : List (DeckToken ℚ)} (hts : p.map (plainMeaning (withText O)) = ts.map some) (hst : StmtTokens st ts) : DeckOf O t [st] := by
  refine ⟨[t], by simp, .cons ⟨ts, ?_, hst⟩ .nil, ?_⟩
  · rw [meaning_plain, ← hts, h]
  · intro part hm
    rw [List.mem_singleton.mp hm]
    rw [← h, plainToks, List.length_map] at hl
    exact hl

theorem items_deck (O : FloatOps ℚ) : ∀ (it : Items) {parent : String}, it.Fit ofInt classes restr parent →
    ∀ toks : List Tok, plainToks toks = itemTokens it → DeckOf O toks (itemStmts it) := by
  intro it
  induction it with
  | nil =>
    intro _ _ toks ht
    have : toks = [] := by simpa [plainToks, itemTokens] using ht
    exact ⟨[], by simp [this], .nil, by simp⟩
  | setting n v rest ih =>
    rintro parent ⟨h1, h2, -, h3⟩ toks ht
    obtain ⟨t1, t2, rfl, e1, e2⟩ := List.map_eq_append_iff.mp (show plainToks toks = typedTokens (n, v) ++ itemTokens rest from ht)
    obtain ⟨ts, hts, hst⟩ := typed_statement O (s := (n, v)) h1 h2
    refine deckOf_append (d1 := [typedStmt (n, v)]) (deckOf_one e1 ?_ hts hst) (ih h3 t2 e2)
    rw [typedTokens]
    rcases v with v | x | t
    · show (_ :: _ :: _ :: (numberTokens v ++ [_])).length ≤ 98
      rw [numberTokens]
      split <;> simp
    · show (_ :: _ :: _ :: (floatTokens x ++ [_])).length ≤ 98
      rw [floatTokens]
      split <;> simp
    · simp [typedValue]
  | param n v rest ih =>
    rintro parent ⟨h1, h2, -, -, h3⟩ toks ht
    obtain ⟨t1, t2, rfl, e1, e2⟩ := List.map_eq_append_iff.mp (show plainToks toks = assignedTokens (n, v) ++ itemTokens rest from ht)
    obtain ⟨ts, hts, hst⟩ := assigned_statement O (s := (n, v)) h1 h2
    refine deckOf_append (d1 := [assignedStmt (n, v)]) (deckOf_one e1 ?_ hts hst) (ih h3 t2 e2)
    rw [assignedTokens]
    rcases v with v | x | t
    · show (_ :: _ :: (numberTokens v ++ [_])).length ≤ 98
      rw [numberTokens]
      split <;> simp
    · show (_ :: _ :: (floatTokens x ++ [_])).length ≤ 98
      rw [floatTokens]
      split <;> simp
    · simp [typedValue]
  | block c n body rest ih1 ih2 =>
    rintro parent ⟨h1, h2, -, -, -, h3, h4⟩ toks ht
    obtain ⟨t1, t2, rfl, e1, e2⟩ := List.map_eq_append_iff.mp (show plainToks toks =
      [(.identifier, bytes c), (.identifier, bytes n), (.lbrace, [])] ++ (itemTokens body ++ ((.rbrace, []) :: itemTokens rest)) from ht)
    obtain ⟨t3, t4, rfl, e3, e4⟩ := List.map_eq_append_iff.mp e2
    obtain ⟨t5, t6, rfl, e5, e6⟩ := List.map_eq_append_iff.mp (show plainToks t4 = [(.rbrace, [])] ++ itemTokens rest from e4)
    have d1 : DeckOf O t1 [.start c n] := by
      refine deckOf_one e1 (by simp) (ts := [.expr (.ident c), .expr (.ident n), .lbrace]) ?_ (.start c n)
      simp only [List.map_cons, List.map_nil, ident_meaning O h1, ident_meaning O h2]
      rfl
    have d2 : DeckOf O t5 [.stop] := deckOf_one e5 (by simp) (ts := [.rbrace]) rfl .stop
    exact deckOf_append d1 (deckOf_append (ih1 h3 t3 e3) (deckOf_append d2 (ih2 h4 t6 e6)))

/-! ## running the statements -/

variable {W : Type}

/-- nothing is lost -/
structure Grows (D D' : DeckState ℚ W) : Prop where
  heap : ∀ (i : ℕ) (x : Variable ℚ W), D.heap[i]? = some x → ∃ x' : Variable ℚ W, D'.heap[i]? = some x' ∧ x'.ty = x.ty ∧ x'.readOnly = x.readOnly
  declares : ∀ b n v, Declares D.store b n v → Declares D'.store b n v
  child : ∀ b n c, ChildNamed D.store b n c → ChildNamed D'.store b n c
  ofClass : ∀ b c, OfClass D.store b c → OfClass D'.store b c
  length : D.store.blocks.length ≤ D'.store.blocks.length

theorem Grows.refl (D : DeckState ℚ W) : Grows D D := ⟨fun _ x h => ⟨x, h, rfl, rfl⟩, fun _ _ _ h => h, fun _ _ _ h => h, fun _ _ h => h, le_refl _⟩

theorem Grows.trans {D1 D2 D3 : DeckState ℚ W} (h : Grows D1 D2) (h' : Grows D2 D3) : Grows D1 D3 := by
  refine ⟨fun i x hx => ?_, fun b n v g => h'.declares _ _ _ (h.declares b n v g),
    fun b n v g => h'.child _ _ _ (h.child b n v g), fun b c g => h'.ofClass _ _ (h.ofClass b c g), h.length.trans h'.length⟩
  obtain ⟨y, hy, g1, g2⟩ := h.heap i x hx
  obtain ⟨z, hz, k1, k2⟩ := h'.heap i y hy
  exact ⟨z, hz, k1.trans g1, k2.trans g2⟩

/-- what is in the memory stays there when something is added -/
theorem kept_append {l t : List (Variable ℚ W)} {i : ℕ} {x : Variable ℚ W} (h : l[i]? = some x) : (l ++ t)[i]? = some x := by
  rw [List.getElem?_append_left (List.getElem?_eq_some_iff.mp h).1, h]

/-- what is new lies in new blocks, or has one of these names and lies in the block `cur`, where parameters `ps` are changed -/
structure Adds (D D' : DeckState ℚ W) (cur : ℕ) (ss bs ps : List String) : Prop where
  keeps : ∀ (b : ℕ) (n : String) (i : ℕ) (x : Variable ℚ W), Declares D.store b n i → ¬ (b = cur ∧ n ∈ ps) → D.heap[i]? = some x → D'.heap[i]? = some x
  declares : ∀ b n v, Declares D'.store b n v → Declares D.store b n v ∨ (b = cur ∧ n ∈ ss) ∨ D.store.blocks.length ≤ b
  child : ∀ b n c, ChildNamed D'.store b n c → ChildNamed D.store b n c ∨ (b = cur ∧ n ∈ bs) ∨ D.store.blocks.length ≤ b

/-- the block has what the items say, for good -/
def Stored (ofInt : ℤ → ℚ) (classes : List (String × ClassDesc ℚ)) (D : DeckState ℚ W) : ℕ → Items → Prop
  | _, .nil => True
  | b, .setting n v rest => (∃ i id, Declares D.store b n i ∧ D.heap[i]? = some (.ofValue v true false id)) ∧ Stored ofInt classes D b rest
  | b, .param n v rest =>
    (∃ i x, Declares D.store b n i ∧ D.heap[i]? = some x ∧ x.fixed = true ∧ x.initialised = true ∧ Gives ofInt x.ty v x.value) ∧ Stored ofInt classes D b rest
  | b, .block c n body rest =>
    (∃ b', ChildNamed D.store b n b' ∧ OfClass D.store b' c ∧ Stored ofInt classes D b' body ∧ body.Only classes D b' c) ∧ Stored ofInt classes D b rest

theorem only_keeps {D D' : DeckState ℚ W} {cur : ℕ} {ss bs ps : List String} (h : Adds D D' cur ss bs ps) {b : ℕ} (hb : b ≠ cur)
    (hl : b < D.store.blocks.length) {c : String} {it : Items} (ho : it.Only classes D b c) : it.Only classes D' b c := by
  refine ⟨fun m v hd => ?_, fun m b' hd => ?_⟩
  · rcases h.declares b m v hd with hd | ⟨hd, -⟩ | hd
    · exact ho.1 m v hd
    · exact absurd hd hb
    · omega
  · rcases h.child b m b' hd with hd | ⟨hd, -⟩ | hd
    · exact ho.2 m b' hd
    · exact absurd hd hb
    · omega

theorem stored_grows {D D' : DeckState ℚ W} (h : Grows D D') {cur : ℕ} {ss bs ps : List String} (ha : Adds D D' cur ss bs ps) (hI : DInv D) :
    ∀ (it : Items) (b : ℕ), cur < b → Stored ofInt classes D b it → Stored ofInt classes D' b it := by
  intro it
  induction it with
  | nil => intro _ _ _; trivial
  | setting n v rest ih =>
    rintro b hb ⟨⟨i, id, h1, h2⟩, h3⟩
    exact ⟨⟨i, id, h.declares _ _ _ h1, ha.keeps b n i _ h1 (fun h => hb.ne' h.1) h2⟩, ih b hb h3⟩
  | param n v rest ih =>
    rintro b hb ⟨⟨i, x, h1, h2, h4⟩, h3⟩
    exact ⟨⟨i, x, h.declares _ _ _ h1, ha.keeps b n i _ h1 (fun h => hb.ne' h.1) h2, h4⟩, ih b hb h3⟩
  | block c n body rest ih1 ih2 =>
    rintro b hb ⟨⟨b', h1, h2, h3, h5⟩, h4⟩
    obtain ⟨B, hB, hp, -⟩ := id h1
    have hlt := hI.store.parent b' b ⟨B, hB, hp⟩
    exact ⟨⟨b', h.child _ _ _ h1, h.ofClass _ _ h2, ih1 b' (by omega) h3,
      only_keeps ha (by omega) (List.getElem?_eq_some_iff.mp hB).1 h5⟩, ih2 b hb h4⟩

theorem pair_of_lookup {α : Type} : ∀ {l : List (String × α)} {n : String} {a : α}, find l n = some a → (n, a) ∈ l := by
  intro l
  induction l with
  | nil => intro n a h; cases h
  | cons p l ih =>
    intro n a h
    obtain ⟨m, b⟩ := p
    unfold find at h ih
    rw [List.lookup_cons] at h
    rcases hm : n == m with _ | _
    · rw [hm] at h
      exact List.mem_cons_of_mem _ (ih h)
    · rw [hm] at h
      cases h
      rw [beq_iff_eq.mp hm]
      exact List.mem_cons_self

/-- classes that are not the program's have no parameters -/
def CInv (classes : List (String × ClassDesc ℚ)) (D : DeckState ℚ W) : Prop :=
  (∀ c d, find D.classes c = some d → classes.lookup c = some d ∨ d.factory = none) ∧ ∀ c d, classes.lookup c = some d → find D.classes c = some d

theorem cinv_append {D D' : DeckState ℚ W} (h : CInv classes D) {l : List (String × ClassDesc ℚ)} (hl : ∀ p ∈ l, p.2.factory = none)
    (he : D'.classes = D.classes ++ l) : CInv classes D' := by
  have hap : ∀ c, find (D.classes ++ l) c = (find D.classes c).or (find l c) := fun c => List.lookup_append
  refine ⟨fun c d hd => ?_, fun c d hd => by rw [he, hap, h.2 c d hd]; rfl⟩
  rw [he, hap] at hd
  rcases hf : find D.classes c with _ | d'
  · rw [hf] at hd
    exact Or.inr (hl (c, d) (pair_of_lookup hd))
  · rw [hf] at hd
    cases hd
    exact h.1 c _ hf

theorem same_child {S S' : Storage} (h : Same S S') (b : ℕ) (n : String) (c : ℕ) : ChildNamed S' b n c ↔ ChildNamed S b n c := by
  constructor
  · rintro ⟨B', h1, h2, h3⟩
    obtain ⟨B, g1, g2, -, g3⟩ := same_back h h1
    exact ⟨B, g1, by rw [← g3]; exact h2, by rw [← g2]; exact h3⟩
  · rintro ⟨B, h1, h2, h3⟩
    obtain ⟨B', g1, g2, -, g3⟩ := h.block c B h1
    exact ⟨B', g1, g3.trans h2, g2.trans h3⟩

theorem same_ofClass {S S' : Storage} (h : Same S S') {b : ℕ} {c : String} (hb : OfClass S b c) : OfClass S' b c := by
  obtain ⟨B, h1, h2⟩ := hb
  obtain ⟨B', g1, -, g2, -⟩ := h.block b B h1
  exact ⟨B', g1, g2.trans h2⟩

/-- what is known after the parameters have been added -/
theorem params_grow (H : Host ℚ W) (k : ℕ) : ∀ (specs : List (ParamSpec ℚ)) (s : DeckState ℚ W × List (String × BlockParam)),
    (∃ t, (specs.foldl (DeckState.addParameter H k) s).1.heap = s.1.heap ++ t) ∧
    (∀ b m v, Declares s.1.store b m v → Declares (specs.foldl (DeckState.addParameter H k) s).1.store b m v) ∧
    ∀ b m v, Declares (specs.foldl (DeckState.addParameter H k) s).1.store b m v → Declares s.1.store b m v ∨ (b = k ∧ ∃ q ∈ specs, q.name = m) := by
  intro specs
  induction specs with
  | nil => intro s; exact ⟨⟨[], by simp⟩, fun _ _ _ h => h, fun _ _ _ h => Or.inl h⟩
  | cons p ps ih =>
    intro s
    rw [List.foldl_cons]
    obtain ⟨⟨t, h1⟩, h2, h3⟩ := ih (DeckState.addParameter H k s p)
    have hh : (DeckState.addParameter H k s p).1.heap = s.1.heap ++ [DeckState.paramVariable H p s.1.nextExt s.1.nextId] := rfl
    have hst : (DeckState.addParameter H k s p).1.store = (s.1.store.addVariableTo k p.name s.1.heap.length).getD s.1.store := rfl
    have hd : (∀ b m v, Declares s.1.store b m v → Declares (DeckState.addParameter H k s p).1.store b m v) ∧
        ∀ b m v, Declares (DeckState.addParameter H k s p).1.store b m v → Declares s.1.store b m v ∨ (b = k ∧ p.name = m) := by
      rw [hst]
      rcases hT : s.1.store.addVariableTo k p.name s.1.heap.length with _ | T
      · exact ⟨fun _ _ _ h => h, fun _ _ _ h => Or.inl h⟩
      · have hdec := Vars.addVariableTo_declares hT
        refine ⟨fun b m v h => (hdec b m v).mpr (Or.inl h), fun b m v h => ?_⟩
        rcases (hdec b m v).mp h with h | ⟨g1, -, g2, -⟩
        · exact Or.inl h
        · exact Or.inr ⟨g1, g2.symm⟩
    refine ⟨⟨_, by rw [h1, hh, List.append_assoc]⟩, fun b m v h => h2 b m v (hd.1 b m v h), fun b m v h => ?_⟩
    rcases h3 b m v h with h | ⟨g1, q, g2, g3⟩
    · rcases hd.2 b m v h with h | ⟨g1, g2⟩
      · exact Or.inl h
      · exact Or.inr ⟨g1, p, by simp, g2⟩
    · exact Or.inr ⟨g1, q, by simp [g2], g3⟩

theorem params_declared_at (H : Host ℚ W) (k : ℕ) : ∀ (specs : List (ParamSpec ℚ)) (s : DeckState ℚ W × List (String × BlockParam)),
    k < s.1.store.blocks.length → Vars.Inv s.1.store → (specs.map ParamSpec.name).Nodup → (∀ q ∈ specs, ∀ v, ¬ Declares s.1.store k q.name v) →
    ∀ q ∈ specs, ∃ v x id, Declares (specs.foldl (DeckState.addParameter H k) s).1.store k q.name v ∧
      (specs.foldl (DeckState.addParameter H k) s).1.heap[v]? = some (DeckState.paramVariable H q x id) := by
  intro specs
  induction specs with
  | nil => intro s _ _ _ _; simp
  | cons p ps ih =>
    intro s h0 hI hnd hnew
    rw [List.map_cons, List.nodup_cons] at hnd
    obtain ⟨T, hT⟩ : ∃ T, s.1.store.addVariableTo k p.name s.1.heap.length = some T := by
      unfold Storage.addVariableTo
      rcases hv : s.1.store.varOf k p.name with _ | v
      · exact ⟨_, rfl⟩
      · exact absurd ((Vars.varOf_iff hI _ _ _).mp hv) (hnew p (by simp) v)
    have hst : (DeckState.addParameter H k s p).1.store = T := by
      show (s.1.store.addVariableTo k p.name s.1.heap.length).getD s.1.store = T
      rw [hT]; rfl
    have hh : (DeckState.addParameter H k s p).1.heap = s.1.heap ++ [DeckState.paramVariable H p s.1.nextExt s.1.nextId] := rfl
    have hdec := Vars.addVariableTo_declares hT
    obtain ⟨-, hlen⟩ := Vars.addVariableTo_cursor hT
    have a5 := ih (DeckState.addParameter H k s p) (by rw [hst]; omega) (by rw [hst]; exact Vars.inv_addVariableTo hI hT) hnd.2 (by
      intro q hq v hd
      rw [hst, hdec] at hd
      rcases hd with hd | ⟨-, -, hd, -⟩
      · exact hnew q (by simp [hq]) v hd
      · exact hnd.1 (hd ▸ List.mem_map_of_mem hq))
    obtain ⟨⟨t, a3⟩, a4, -⟩ := params_grow H k ps (DeckState.addParameter H k s p)
    rw [hst] at a4
    rw [List.foldl_cons]
    intro q hq
    rcases List.mem_cons.mp hq with rfl | hq
    · refine ⟨s.1.heap.length, s.1.nextExt, s.1.nextId, a4 _ _ _ ((hdec _ _ _).mpr (Or.inr ⟨rfl, h0, rfl, rfl⟩)), ?_⟩
      rw [a3, hh, List.append_assoc, List.getElem?_append_right (le_refl _)]
      simp
    · exact a5 q hq

theorem params_new (H : Host ℚ W) (k : ℕ) : ∀ (specs : List (ParamSpec ℚ)) (s : DeckState ℚ W × List (String × BlockParam)),
    k < s.1.store.blocks.length → Vars.Inv s.1.store → (specs.map ParamSpec.name).Nodup → (∀ q ∈ specs, ∀ v, ¬ Declares s.1.store k q.name v) →
    ∀ (i : ℕ) (x : Variable ℚ W), (specs.foldl (DeckState.addParameter H k) s).1.heap[i]? = some x → s.1.heap[i]? = some x ∨
      ∃ q ∈ specs, Declares (specs.foldl (DeckState.addParameter H k) s).1.store k q.name i ∧ ∃ e id, x = DeckState.paramVariable H q e id := by
  intro specs
  induction specs with
  | nil => intro s _ _ _ _ i x h; exact Or.inl h
  | cons p ps ih =>
    intro s h0 hI hnd hnew i x hx
    rw [List.map_cons, List.nodup_cons] at hnd
    obtain ⟨T, hT⟩ : ∃ T, s.1.store.addVariableTo k p.name s.1.heap.length = some T := by
      unfold Storage.addVariableTo
      rcases hv : s.1.store.varOf k p.name with _ | v
      · exact ⟨_, rfl⟩
      · exact absurd ((Vars.varOf_iff hI _ _ _).mp hv) (hnew p (by simp) v)
    have hst : (DeckState.addParameter H k s p).1.store = T := by
      show (s.1.store.addVariableTo k p.name s.1.heap.length).getD s.1.store = T
      rw [hT]; rfl
    have hh : (DeckState.addParameter H k s p).1.heap = s.1.heap ++ [DeckState.paramVariable H p s.1.nextExt s.1.nextId] := rfl
    have hdec := Vars.addVariableTo_declares hT
    obtain ⟨-, hlen⟩ := Vars.addVariableTo_cursor hT
    rw [List.foldl_cons] at hx ⊢
    obtain ⟨-, a4, -⟩ := params_grow H k ps (DeckState.addParameter H k s p)
    rcases ih (DeckState.addParameter H k s p) (by rw [hst]; omega) (by rw [hst]; exact Vars.inv_addVariableTo hI hT) hnd.2 (by
      intro q hq v hd
      rw [hst, hdec] at hd
      rcases hd with hd | ⟨-, -, hd, -⟩
      · exact hnew q (by simp [hq]) v hd
      · exact hnd.1 (hd ▸ List.mem_map_of_mem hq)) i x hx with h | ⟨q, hq, h⟩
    · rw [hh] at h
      by_cases hi : i < s.1.heap.length
      · rw [List.getElem?_append_left hi] at h
        exact Or.inl h
      · rw [List.getElem?_append_right (by omega)] at h
        have hi0 : i - s.1.heap.length = 0 := by
          have := (List.getElem?_eq_some_iff.mp h).1
          simp at this
          omega
        rw [hi0] at h
        cases h
        have hie : i = s.1.heap.length := by omega
        subst hie
        exact Or.inr ⟨p, by simp, a4 _ _ _ (by rw [hst]; exact (hdec _ _ _).mpr (Or.inr ⟨rfl, h0, rfl, rfl⟩)), _, _, rfl⟩
    · exact Or.inr ⟨q, by simp [hq], h⟩

/-- expressions are only those of parameters that can only be read -/
def Calm (D : DeckState ℚ W) : Prop := ∀ x ∈ D.heap, ∀ e, x.expression = some e → x.readOnly = true

theorem paramVariable_calm (H : Host ℚ W) (q : ParamSpec ℚ) (x : ℕ) (id : ℤ) {e : Expr ℚ W}
    (h : (DeckState.paramVariable H q x id).expression = some e) : (DeckState.paramVariable H q x id).readOnly = true := by
  unfold DeckState.paramVariable at h ⊢
  by_cases hc : q.constant = true
  · rw [if_pos hc] at h; cases h
  · rw [if_neg hc] at h ⊢
    by_cases hr : q.readOnly = true
    · rw [if_pos hr]; rfl
    · rw [if_neg hr] at h; cases h

theorem params_calm (H : Host ℚ W) (c : ℕ) (specs : List (ParamSpec ℚ)) :
    ∀ s : DeckState ℚ W × List (String × BlockParam), Calm s.1 → Calm (specs.foldl (DeckState.addParameter H c) s).1 := by
  induction specs with
  | nil => intro s h; exact h
  | cons p ps ih =>
    intro s h
    rw [List.foldl_cons]
    refine ih (DeckState.addParameter H c s p) ?_
    intro x hx e he
    rcases List.mem_append.mp hx with hx | hx
    · exact h x hx e he
    · rw [List.mem_singleton.mp hx] at he ⊢
      exact paramVariable_calm H p _ _ he

/-- what has no value had none before, and is not one of these parameters -/
def Fills (D D' : DeckState ℚ W) (cur : ℕ) (ps : List String) : Prop :=
  ∀ (i : ℕ) (x' : Variable ℚ W), D'.heap[i]? = some x' → x'.initialised = true ∨
    ∃ x : Variable ℚ W, D.heap[i]? = some x ∧ x.initialised = false ∧ ∀ n ∈ ps, ¬ Declares D.store cur n i

theorem paramVariable_filled (H : Host ℚ W) (q : ParamSpec ℚ) (x : ℕ) (id : ℤ) (h : (DeckState.paramVariable H q x id).initialised = false) :
    q.readOnly = false ∧ q.constant = false ∧ q.default = none := by
  unfold DeckState.paramVariable at h
  split at h
  · cases h
  · split at h
    · cases h
    · rename_i h1 h2
      refine ⟨by simpa using h2, by simpa using h1, ?_⟩
      change q.default.isSome = false at h
      simpa using h

theorem paramVariable_ty (H : Host ℚ W) (q : ParamSpec ℚ) (x : ℕ) (id : ℤ) (hqr : q.readOnly = false) (hqc : q.constant = false) :
    (DeckState.paramVariable H q x id).ty = q.current.ty ∧ (DeckState.paramVariable H q x id).readOnly = false := by
  unfold DeckState.paramVariable
  simp only [hqc, hqr, Bool.false_eq_true, if_false]
  refine ⟨?_, rfl⟩
  show (q.default.getD (DeckState.zero H q.current.ty)).ty = q.current.ty
  rcases hq' : q.default with _ | y
  · rcases q.current with _ | _ | _ <;> rfl
  · exact q.typed y hq'

/-- the block has the parameters of the class -/
def ParamsAt (classes : List (String × ClassDesc ℚ)) (D : DeckState ℚ W) (b : ℕ) (c : String) : Prop :=
  ∀ d specs, classes.lookup c = some d → d.factory = some specs → ∀ q ∈ specs, q.readOnly = false → q.constant = false →
    ∃ (i : ℕ) (x : Variable ℚ W), Declares D.store b q.name i ∧ D.heap[i]? = some x ∧ x.ty = q.current.ty ∧ x.readOnly = false

theorem paramsAt_grows {D D' : DeckState ℚ W} (h : Grows D D') {b : ℕ} {c : String} (hp : ParamsAt classes D b c) : ParamsAt classes D' b c := by
  intro d specs hd hf q hq h1 h2
  obtain ⟨i, x, g1, g2, g3, g4⟩ := hp d specs hd hf q hq h1 h2
  obtain ⟨y, k1, k2, k3⟩ := h.heap i x g2
  exact ⟨i, y, h.declares _ _ _ g1, k1, k2.trans g3, k3.trans g4⟩

/-- what is needed before a statement -/
structure Ready (classes : List (String × ClassDesc ℚ)) (restr : Bool) (D : DeckState ℚ W) : Prop where
  inv : DInv D
  refs : NoRefs D
  nest : BInv classes restr D
  cls : CInv classes D
  calm : Calm D

/-- a block begins -/
theorem step_start (H : Host ℚ W) (hnames : DistinctNames classes) {D : DeckState ℚ W} (hD : Ready classes restr D) {parent c n : String}
    (hp : OfClass D.store D.store.cursor parent) (hc : restr = true → Allows classes parent c)
    (hn : ∀ b, ¬ ChildNamed D.store D.store.cursor n b) :
    ∃ D1, D.step H (.start c n) = (true, D1) ∧ Ready classes restr D1 ∧ D1.store.cursor = D.store.blocks.length ∧ Grows D D1 ∧ (∃ t, D1.heap = D.heap ++ t) ∧
      ParamsAt classes D1 D.store.blocks.length c ∧
      (∀ (i : ℕ) (x : Variable ℚ W), D1.heap[i]? = some x → x.initialised = true ∨ D.heap[i]? = some x ∨ ∃ d specs, classes.lookup c = some d ∧
        d.factory = some specs ∧ ∃ q ∈ specs, Declares D1.store D.store.blocks.length q.name i ∧ q.readOnly = false ∧ q.constant = false ∧ q.default = none) ∧
      D1.store.blocks.length = D.store.blocks.length + 1 ∧
      ChildNamed D1.store D.store.cursor n D.store.blocks.length ∧ OfClass D1.store D.store.blocks.length c ∧
      (∀ b m v, Declares D1.store b m v → Declares D.store b m v ∨ (b = D.store.blocks.length ∧
        ∃ d specs, classes.lookup c = some d ∧ d.factory = some specs ∧ ∃ q ∈ specs, q.name = m)) ∧
      ∀ b m d, ChildNamed D1.store b m d → ChildNamed D.store b m d ∨ (b = D.store.cursor ∧ m = n) := by
  have hcond : ¬ (D.restr && !D.hasChild D.currentClass c) = true := by
    obtain ⟨B, hB, hBc⟩ := hp
    have hcur : D.currentClass = parent := by
      unfold DeckState.currentClass
      rw [hB]; exact hBc
    rw [hD.nest.restr, hcur]
    rcases restr with _ | _
    · simp
    · rw [(hD.nest.allows parent c).mpr (hc rfl)]; simp
  have hchild : D.store.childOf D.store.cursor n = none := by
    rcases h : D.store.childOf D.store.cursor n with _ | b
    · rfl
    · unfold Storage.childOf at h
      obtain ⟨B, hB, hf⟩ := Option.bind_eq_some_iff.mp h
      exact absurd ((hD.inv.store.child _ B hB n b).mp (pair_of_lookup hf)) (hn b)
  obtain ⟨st, hst⟩ : ∃ st, D.store.createBlock n c = some st := by
    unfold Storage.createBlock
    rw [hchild]
    exact ⟨_, rfl⟩
  have hstep : D.step H (.start c n) = (true, DeckState.enterBlock H { D with store := st } n c) := by
    show D.createBlock H c n = _
    unfold DeckState.createBlock
    rw [if_neg hcond, hst]
  obtain ⟨k1, k2, -⟩ := Vars.createBlock_cursor hst
  have hSt : Vars.Inv st := Vars.inv_createBlock hD.inv.store hst
  have hsame := enterBlock_same H { D with store := st } n c
  have hI := dinv_step H D (.start c n) hD.inv
  have hB := binv_step hD.nest hD.inv H (.start c n)
  rw [hstep] at hI hB
  obtain ⟨l, hl, hl1, d0, hl2, hl3⟩ := getClass_snd ({ D with store := st } : DeckState ℚ W) c
  have hC1 : CInv classes (({ D with store := st } : DeckState ℚ W).getClass c).2 :=
    cinv_append hD.cls hl1 (by rw [hl])
  -- the state after the block has been entered
  have hmain : NoRefs (DeckState.enterBlock H { D with store := st } n c) ∧ Calm (DeckState.enterBlock H { D with store := st } n c) ∧
      (∀ (i : ℕ) (x : Variable ℚ W), (DeckState.enterBlock H { D with store := st } n c).heap[i]? = some x → x.initialised = true ∨ D.heap[i]? = some x ∨
        ∃ d specs, classes.lookup c = some d ∧ d.factory = some specs ∧ ∃ q ∈ specs,
          Declares (DeckState.enterBlock H { D with store := st } n c).store D.store.blocks.length q.name i ∧
            q.readOnly = false ∧ q.constant = false ∧ q.default = none) ∧ CInv classes (DeckState.enterBlock H { D with store := st } n c) ∧
      (∃ t, (DeckState.enterBlock H { D with store := st } n c).heap = D.heap ++ t) ∧
      ParamsAt classes (DeckState.enterBlock H { D with store := st } n c) D.store.blocks.length c ∧
      (∀ b m v, Declares st b m v → Declares (DeckState.enterBlock H { D with store := st } n c).store b m v) ∧
      ∀ b m v, Declares (DeckState.enterBlock H { D with store := st } n c).store b m v → Declares st b m v ∨ (b = D.store.blocks.length ∧
        ∃ d specs, classes.lookup c = some d ∧ d.factory = some specs ∧ ∃ q ∈ specs, q.name = m) := by
    rcases hf : (({ D with store := st } : DeckState ℚ W).getClass c).1.factory with _ | specs
    · rw [enterBlock_none H _ n c hf]
      refine ⟨?_, ?_, ?_, hC1, ⟨[], ?_⟩, ?_, ?_, ?_⟩
      rotate_left
      · show Calm (({ D with store := st } : DeckState ℚ W).getClass c).2
        rw [hl]; exact hD.calm
      · intro i x hx
        change (({ D with store := st } : DeckState ℚ W).getClass c).2.heap[i]? = some x at hx
        rw [hl] at hx
        exact Or.inr (Or.inl hx)
      rotate_right
      · show NoRefs (({ D with store := st } : DeckState ℚ W).getClass c).2
        rw [hl]; exact hD.refs
      · show (({ D with store := st } : DeckState ℚ W).getClass c).2.heap = _
        rw [hl]; simp
      · intro d specs hd hs
        have := hC1.2 c d hd
        rw [hl] at this
        rw [show find (D.classes ++ l) c = some d from this] at hl2
        cases hl2
        rw [← hl3, hf] at hs
        cases hs
      · intro b m v h
        show Declares (({ D with store := st } : DeckState ℚ W).getClass c).2.store b m v
        rw [hl]; exact h
      · intro b m v h
        change Declares (({ D with store := st } : DeckState ℚ W).getClass c).2.store b m v at h
        rw [hl] at h; exact Or.inl h
    · rw [enterBlock_some H _ n c specs hf]
      have hd : classes.lookup c = some d0 := by
        rcases hC1.1 c d0 (by rw [hl]; exact hl2) with h | h
        · exact h
        · rw [← hl3, hf] at h; cases h
      have g1 := (params_noRefs H (({ D with store := st } : DeckState ℚ W).getClass c).2.store.cursor specs
        ((({ D with store := st } : DeckState ℚ W).getClass c).2, []) (by rw [hl]; exact hD.refs)).1
      have g2 := (same_params H (({ D with store := st } : DeckState ℚ W).getClass c).2.store.cursor specs
        ((({ D with store := st } : DeckState ℚ W).getClass c).2, [])).2.2
      obtain ⟨⟨t, g3⟩, g4, g5⟩ := params_grow H (({ D with store := st } : DeckState ℚ W).getClass c).2.store.cursor specs
        ((({ D with store := st } : DeckState ℚ W).getClass c).2, [])
      have hs : (({ D with store := st } : DeckState ℚ W).getClass c).2.store = st := by rw [hl]
      have hh : (({ D with store := st } : DeckState ℚ W).getClass c).2.heap = D.heap := by rw [hl]
      have hk : (({ D with store := st } : DeckState ℚ W).getClass c).2.store.cursor = D.store.blocks.length := by rw [hs]; exact k1
      have hfresh : ∀ q ∈ specs, ∀ v, ¬ Declares (({ D with store := st } : DeckState ℚ W).getClass c).2.store
          (({ D with store := st } : DeckState ℚ W).getClass c).2.store.cursor q.name v := by
        intro q _ v hd
        rw [hk, hs] at hd
        obtain ⟨B, hB, -⟩ := (Vars.createBlock_declares hst _ _ _).mp hd
        exact absurd (List.getElem?_eq_some_iff.mp hB).1 (lt_irrefl _)
      have hnd := hnames c d0 specs hd (by rw [← hl3]; exact hf)
      refine ⟨g1, params_calm H _ specs _ (by rw [hl]; exact hD.calm), ?_, ⟨fun c' d' h' => hC1.1 c' d' (by rw [← g2]; exact h'), fun c' d' h' => ?_⟩, ⟨t, g3.trans (by rw [hh])⟩, ?_, ?_, ?_⟩
      · intro i x hx
        rcases params_new H (({ D with store := st } : DeckState ℚ W).getClass c).2.store.cursor specs
          ((({ D with store := st } : DeckState ℚ W).getClass c).2, []) (by rw [hk, hs]; show _ < st.blocks.length; omega)
          (by rw [hs]; exact hSt) hnd hfresh i x hx with h | ⟨q, hq, hqd, e, id, rfl⟩
        · refine Or.inr (Or.inl ?_)
          rw [← hh]; exact h
        · rcases hin : (DeckState.paramVariable H q e id).initialised with _ | _
          · obtain ⟨q1, q2, q3⟩ := paramVariable_filled H q e id hin
            refine Or.inr (Or.inr ⟨d0, specs, hd, by rw [← hl3]; exact hf, q, hq, ?_, q1, q2, q3⟩)
            conv => arg 2; rw [← hk]
            exact hqd
          · exact Or.inl rfl
      · have := hC1.2 c' d' h'
        rw [← g2] at this
        exact this
      · intro d specs' hd' hs' q hq hqr hqc
        rw [hd] at hd'
        cases hd'
        rw [← hl3, hf] at hs'
        cases hs'
        obtain ⟨v, x, id, p1, p2⟩ := params_declared_at H (({ D with store := st } : DeckState ℚ W).getClass c).2.store.cursor specs
          ((({ D with store := st } : DeckState ℚ W).getClass c).2, []) (by rw [hk, hs]; show _ < st.blocks.length; omega)
          (by rw [hs]; exact hSt) hnd hfresh q hq
        obtain ⟨t1, t2⟩ := paramVariable_ty H q x id hqr hqc
        refine ⟨v, _, ?_, p2, t1, t2⟩
        conv => arg 2; rw [← hk]
        exact p1
      · intro b m v h
        exact g4 b m v (by rw [hs]; exact h)
      · intro b m v h
        rcases g5 b m v h with h | ⟨h, q, hq, hqm⟩
        · rw [hs] at h; exact Or.inl h
        · refine Or.inr ⟨?_, d0, specs, hd, by rw [← hl3]; exact hf, q, hq, hqm⟩
          rw [h, hs]; exact k1
  obtain ⟨m1, mc, mi, m2, m3, mp, m4, m5⟩ := hmain
  have hcn := Vars.createBlock_childNamed hst hD.inv.store
  refine ⟨_, hstep, ⟨hI, m1, hB, m2, mc⟩, hsame.cursor.trans k1, ⟨?_, ?_, ?_, ?_, ?_⟩, m3, mp, mi, hsame.length.trans k2, ?_, ?_, ?_, ?_⟩
  · intro i x hx
    obtain ⟨t, ht⟩ := m3
    exact ⟨x, by rw [ht]; exact kept_append hx, rfl, rfl⟩
  · intro b m v h
    exact m4 b m v ((Vars.createBlock_declares hst b m v).mpr h)
  · intro b m d h
    exact (same_child hsame b m d).mpr ((hcn b m d).mpr (Or.inl h))
  · rintro b c' ⟨A, hA, hAc⟩
    obtain ⟨B, g1, -, -, -, g2, -⟩ := Vars.createBlock_old hst hA
    exact same_ofClass hsame ⟨B, g1, g2.trans hAc⟩
  · rw [hsame.length]
    show _ ≤ st.blocks.length
    omega
  · exact (same_child hsame _ _ _).mpr ((hcn _ _ _).mpr (Or.inr ⟨rfl, rfl, rfl⟩))
  · exact same_ofClass hsame ⟨_, by
      show st.blocks[_]? = _
      rw [Vars.createBlock_blocks hst, if_pos rfl], rfl⟩
  · intro b m v h
    rcases m5 b m v h with h | h
    · exact Or.inl ((Vars.createBlock_declares hst b m v).mp h)
    · exact Or.inr h
  · intro b m d h
    rcases (hcn b m d).mp ((same_child hsame b m d).mp h) with h | ⟨h1, h2, -⟩
    · exact Or.inl h
    · exact Or.inr ⟨h1, h2⟩

/-- a block ends -/
theorem step_stop (H : Host ℚ W) {D : DeckState ℚ W} (hD : Ready classes restr D) {p : ℕ} {n : String} (hp : ChildNamed D.store p n D.store.cursor) :
    ∃ D1, D.step H .stop = (true, D1) ∧ Ready classes restr D1 ∧ D1.store.cursor = p ∧ D1.store.blocks = D.store.blocks ∧ D1.heap = D.heap := by
  have hpar : D.store.parentOf D.store.cursor = some p := by
    obtain ⟨B, h1, h2, -⟩ := hp
    unfold Storage.parentOf
    rw [h1]; exact h2
  have hstep : D.step H .stop = (true, { D with store := D.store.cursorUp, tree := D.tree.moveUp }) := by
    show D.endBlock = _
    unfold DeckState.endBlock
    rw [hpar]
  have hI := dinv_step H D .stop hD.inv
  have hB := binv_step hD.nest hD.inv H .stop
  rw [hstep] at hI hB
  refine ⟨_, hstep, ⟨hI, hD.refs, hB, hD.cls, hD.calm⟩, ?_, rfl, rfl⟩
  show (D.store.parentOf D.store.cursor).getD 0 = p
  rw [hpar]; rfl

theorem params_mem : ∀ (it : Items) {parent : String}, it.Fit ofInt classes restr parent → ∀ {n : String}, n ∈ it.params →
    ∃ q : ParamSpec ℚ, ∃ d specs, classes.lookup parent = some d ∧ d.factory = some specs ∧ q ∈ specs ∧ q.name = n ∧ q.readOnly = false ∧
      q.constant = false := by
  intro it
  induction it with
  | nil => intro _ _ n hn; cases hn
  | setting m v rest ih => rintro parent ⟨-, -, -, h⟩ n hn; exact ih h hn
  | param m v rest ih =>
    rintro parent ⟨-, -, -, ⟨d, specs, q, h1, h2, h3, h4, h5, h6, -⟩, h⟩ n hn
    rcases List.mem_cons.mp hn with rfl | hn
    · exact ⟨q, d, specs, h1, h2, h3, h4, h5, h6⟩
    · exact ih h hn
  | block c m body rest ih1 ih2 => rintro parent ⟨-, -, -, -, -, -, h⟩ n hn; exact ih2 h hn

theorem run_items (H : Host ℚ W) (hneg : ∀ y, H.ops.neg y = -y) (hnames : DistinctNames classes)
    (hgives : ∀ t v val, Gives ofInt t v val → convert H.ops t v = some val) : ∀ (it : Items) (parent : String) (D : DeckState ℚ W), Ready classes restr D →
    OfClass D.store D.store.cursor parent → ParamsAt classes D D.store.cursor parent → it.Fit ofInt classes restr parent →
    (∀ n ∈ it.settings, ∀ v, ¬ Declares D.store D.store.cursor n v) → (∀ n ∈ it.blocks, ∀ b, ¬ ChildNamed D.store D.store.cursor n b) →
    ∃ D', D.run H (itemStmts it) = (true, D') ∧ Ready classes restr D' ∧ D'.store.cursor = D.store.cursor ∧ Grows D D' ∧
      Adds D D' D.store.cursor it.settings it.blocks it.params ∧ Stored ofInt classes D' D.store.cursor it ∧
      (it.Complete classes → Fills D D' D.store.cursor it.params) := by
  intro it
  induction it with
  | nil =>
    intro parent D hD _ _ _ _ _
    exact ⟨D, rfl, hD, rfl, .refl D, ⟨fun _ _ _ _ _ _ h => h, fun _ _ _ h => Or.inl h, fun _ _ _ h => Or.inl h⟩, trivial, fun _ i x h => by
      rcases hi : x.initialised with _ | _
      · exact Or.inr ⟨x, h, hi, by simp [Items.params]⟩
      · exact Or.inl rfl⟩
  | setting n v rest ih =>
    rintro parent D hD hp hpa ⟨hn, hv, hnr, hfit⟩ hs hb
    obtain ⟨st, hst, hstep⟩ := step_typed H hneg D hD.inv (s := (n, v)) hv (hs n (by simp [Items.settings]))
    have hI := dinv_step H D (typedStmt (n, v)) hD.inv
    have hB := binv_step hD.nest hD.inv H (typedStmt (n, v))
    rw [hstep] at hI hB
    have hdec := Vars.addVariableTo_declares hst
    have hcn := Vars.addVariableTo_childNamed hst
    obtain ⟨hcur, hlen⟩ := Vars.addVariableTo_cursor hst
    have hbl := Vars.addVariableTo_blocks hst
    generalize hD1 : ({ D with store := st, heap := D.heap ++ [.ofValue v true false D.nextId], nextId := D.nextId + 1 } :
      DeckState ℚ W) = D1 at hstep hI hB
    have hs1 : D1.store = st := by rw [← hD1]
    have hh1 : D1.heap = D.heap ++ [.ofValue v true false D.nextId] := by rw [← hD1]
    have hc1 : D1.classes = D.classes := by rw [← hD1]
    rw [← hs1] at hdec hcn hcur hlen hbl
    have hR1 : Ready classes restr D1 := by
      refine ⟨hI, ?_, hB, ?_, ?_⟩
      · intro x hx e he
        rw [hh1] at hx
        rcases List.mem_append.mp hx with hx | hx
        · exact hD.refs x hx e he
        · rw [List.mem_singleton.mp hx] at he; cases he
      · unfold CInv
        rw [hc1]
        exact hD.cls
      · intro x hx e he
        rw [hh1] at hx
        rcases List.mem_append.mp hx with hx | hx
        · exact hD.calm x hx e he
        · rw [List.mem_singleton.mp hx] at he; cases he
    have hG1 : Grows D D1 := by
      refine ⟨fun i x hx => ⟨x, by rw [hh1]; exact kept_append hx, rfl, rfl⟩, fun b m w h => (hdec b m w).mpr (Or.inl h), fun b m w h => (hcn b m w).mpr h, ?_, by rw [hlen]⟩
      rintro b c ⟨B, h1, h2⟩
      by_cases hb : D.store.cursor = b
      · have hb' := hbl b
        rw [if_pos hb, h1, Option.map_some] at hb'
        exact ⟨_, hb', h2⟩
      · exact ⟨B, by rw [hbl, if_neg hb, h1], h2⟩
    obtain ⟨D', a1, a2, a3, a4, a5, a6, a7⟩ := ih parent D1 hR1 (by rw [hcur]; exact hG1.ofClass _ _ hp) (by rw [hcur]; exact paramsAt_grows hG1 hpa) hfit (by
      intro m hm w hd
      rw [hcur, hdec] at hd
      rcases hd with hd | ⟨-, -, hd, -⟩
      · exact hs m (by simp [Items.settings, hm]) w hd
      · exact hnr ((show m = n from hd) ▸ hm)) (by
      intro m hm b hd
      rw [hcur, hcn] at hd
      exact hb m (by simpa [Items.blocks] using hm) b hd)
    rw [hcur] at a3 a5 a6 a7
    refine ⟨D', ?_, a2, a3, hG1.trans a4, ⟨?_, ?_, ?_⟩, ⟨⟨D.heap.length, D.nextId, ?_, ?_⟩, a6⟩, fun hcomp i x hx => ?_⟩
    · show DeckState.chain (DeckState.step H) (typedStmt (n, v) :: itemStmts rest) D = _
      rw [chain_cons, hstep]
      exact a1
    · intro b m i x hd hne hx
      exact a5.keeps b m i x (hG1.declares _ _ _ hd) hne (by rw [hh1]; exact kept_append hx)
    · intro b m w h
      rcases a5.declares b m w h with h | ⟨h1, h2⟩ | h
      · rcases (hdec b m w).mp h with h | ⟨h1, -, h2, -⟩
        · exact Or.inl h
        · exact Or.inr (Or.inl ⟨h1, by simp [Items.settings, h2]⟩)
      · exact Or.inr (Or.inl ⟨h1, by simp [Items.settings, h2]⟩)
      · exact Or.inr (Or.inr (by rw [hlen] at h; exact h))
    · intro b m w h
      rcases a5.child b m w h with h | ⟨h1, h2⟩ | h
      · exact Or.inl ((hcn b m w).mp h)
      · exact Or.inr (Or.inl ⟨h1, by simpa [Items.blocks] using h2⟩)
      · exact Or.inr (Or.inr (by rw [hlen] at h; exact h))
    · exact a4.declares _ _ _ ((hdec _ _ _).mpr (Or.inr ⟨rfl, hD.inv.store.cursor, rfl, rfl⟩))
    · refine a5.keeps D.store.cursor n _ _ ((hdec _ _ _).mpr (Or.inr ⟨rfl, hD.inv.store.cursor, rfl, rfl⟩)) ?_ ?_
      · rintro ⟨-, hm⟩
        obtain ⟨q, hq⟩ := params_mem rest hfit hm
        obtain ⟨d, specs, g1, g2, g3, g4, g5, g6⟩ := hq
        obtain ⟨i, x, k1, -⟩ := hpa d specs g1 g2 q g3 g5 g6
        exact hs n (by simp [Items.settings]) i (g4 ▸ k1)
      · rw [hh1, List.getElem?_append_right (le_refl _)]
        simp
    · rcases a7 hcomp i x hx with h | ⟨y, h1, h2, h3⟩
      · exact Or.inl h
      · rw [hh1] at h1
        by_cases hi : i < D.heap.length
        · rw [List.getElem?_append_left hi] at h1
          exact Or.inr ⟨y, h1, h2, fun m hm hd => h3 m hm (hG1.declares _ _ _ hd)⟩
        · have := List.mem_of_getElem? ((List.getElem?_append_right (by omega)).symm.trans h1)
          rw [List.mem_singleton.mp this] at h2
          cases h2
  | param n v rest ih =>
    rintro parent D hD hp hpa ⟨hn, hv, hnr, ⟨d, specs, q, hd, hf, hq, hqn, hqr, hqc, val, hval⟩, hfit⟩ hs hb
    obtain ⟨i, x, hi, hx, hty, hro⟩ := hpa d specs hd hf q hq hqr hqc
    rw [hqn] at hi
    rw [← hty] at hval
    have hstep := step_assigned H hneg D hD.inv (s := (n, v)) hn hv hi hx hro (hgives _ _ _ hval)
    have hI := dinv_step H D (assignedStmt (n, v)) hD.inv
    have hB := binv_step hD.nest hD.inv H (assignedStmt (n, v))
    rw [hstep] at hI hB
    have hilt := (List.getElem?_eq_some_iff.mp hx).1
    have hvt : val.ty = x.ty := convert_ty _ _ _ _ (hgives _ _ _ hval)
    generalize hx' : ({ x with value := val, expression := none, fixed := true, initialised := true, id := D.nextId } : Variable ℚ W) = x'
      at hstep hI hB
    have hxt : x'.ty = x.ty := by rw [← hx']
    generalize hD1 : ({ D with heap := D.heap.set i x', nextId := D.nextId + 1 } : DeckState ℚ W) = D1 at hstep hI hB
    have hs1 : D1.store = D.store := by rw [← hD1]
    have hh1 : D1.heap = D.heap.set i x' := by rw [← hD1]
    have hc1 : D1.classes = D.classes := by rw [← hD1]
    have hR1 : Ready classes restr D1 := by
      refine ⟨hI, ?_, hB, ?_, ?_⟩
      rotate_right
      · intro y hy e he
        rw [hh1] at hy
        rcases List.mem_or_eq_of_mem_set hy with hy | rfl
        · exact hD.calm y hy e he
        · rw [← hx'] at he; cases he
      · intro y hy e he
        rw [hh1] at hy
        rcases List.mem_or_eq_of_mem_set hy with hy | rfl
        · exact hD.refs y hy e he
        · rw [← hx'] at he; cases he
      · unfold CInv
        rw [hc1]
        exact hD.cls
    have hG1 : Grows D D1 := by
      refine ⟨fun j y hy => ?_, fun b m w h => by rw [hs1]; exact h, fun b m w h => by rw [hs1]; exact h, fun b m h => by rw [hs1]; exact h, by rw [hs1]⟩
      by_cases hj : i = j
      · subst hj
        rw [hx] at hy
        cases hy
        exact ⟨x', by rw [hh1, List.getElem?_set_self hilt], hxt, by rw [← hx']⟩
      · exact ⟨y, by rw [hh1, List.getElem?_set_ne hj]; exact hy, rfl, rfl⟩
    obtain ⟨D', a1, a2, a3, a4, a5, a6, a7⟩ := ih parent D1 hR1 (by rw [hs1]; exact hp) (by have := paramsAt_grows hG1 hpa; rw [hs1]; exact this) hfit
      (by rw [hs1]; exact hs) (by rw [hs1]; exact hb)
    rw [hs1] at a3 a5 a6 a7
    refine ⟨D', ?_, a2, a3, hG1.trans a4, ⟨?_, ?_, ?_⟩, ⟨⟨i, x', ?_, ?_, by rw [← hx'], by rw [← hx'], ?_⟩, a6⟩, fun hcomp j y hy => ?_⟩
    · show DeckState.chain (DeckState.step H) (assignedStmt (n, v) :: itemStmts rest) D = _
      rw [chain_cons, hstep]
      exact a1
    · intro b m j y hdm hne hy
      refine a5.keeps b m j y (by rw [hs1]; exact hdm) (fun h => hne ⟨h.1, by simp [Items.params, h.2]⟩) ?_
      rw [hh1, List.getElem?_set_ne, hy]
      rintro rfl
      obtain ⟨o1, o2⟩ := hD.inv.once _ _ _ _ _ hi hdm
      exact hne ⟨o1.symm, by simp [Items.params, o2]⟩
    · intro b m w h
      have := a5.declares b m w h
      rw [hs1] at this
      exact this
    · intro b m w h
      have := a5.child b m w h
      rw [hs1] at this
      exact this
    · exact a4.declares _ _ _ (by rw [hs1]; exact hi)
    · refine a5.keeps D.store.cursor n i x' (by rw [hs1]; exact hi) (fun h => hnr h.2) ?_
      rw [hh1, List.getElem?_set_self hilt]
    · rw [hxt, ← hx']
      exact hval
    · rcases a7 hcomp j y hy with h | ⟨z, h1, h2, h3⟩
      · exact Or.inl h
      · rw [hh1] at h1
        have hij : i ≠ j := by
          rintro rfl
          rw [List.getElem?_set_self hilt] at h1
          cases h1
          rw [← hx'] at h2
          cases h2
        rw [List.getElem?_set_ne hij] at h1
        refine Or.inr ⟨z, h1, h2, fun m hm hdm => ?_⟩
        rcases List.mem_cons.mp hm with rfl | hm
        · have p1 := (Vars.varOf_iff hD.inv.store _ _ _).mpr hdm
          rw [(Vars.varOf_iff hD.inv.store _ _ _).mpr hi] at p1
          exact hij (Option.some.inj p1)
        · exact h3 m hm (by rw [hs1]; exact hdm)
  | block c n body rest ih1 ih2 =>
    rintro parent D hD hp hpa ⟨hnc, hnn, hnr, hall, hpar, hfit1, hfit2⟩ hs hb
    have hcl := hD.inv.store.cursor
    obtain ⟨D1, b1, b2, b3, b4, ⟨t, bh⟩, bp, bi, b5, b6, b7, b8, b9⟩ := step_start H hnames hD hp hall (hb n (by simp [Items.blocks]))
    obtain ⟨D2, c1, c2, c3, c4, c5, c6, c7⟩ := ih1 c D1 b2 (by rw [b3]; exact b7) (by rw [b3]; exact bp) hfit1 (by
      intro m hm w hd
      rw [b3] at hd
      rcases b8 _ _ _ hd with hd | ⟨-, d, specs, h1, h2, q, hq, hqm⟩
      · obtain ⟨B, hB, -⟩ := hd
        exact absurd (List.getElem?_eq_some_iff.mp hB).1 (lt_irrefl _)
      · exact hpar d specs h1 h2 q hq (hqm ▸ hm)) (by
      intro m hm b hd
      rw [b3] at hd
      rcases b9 _ _ _ hd with hd | ⟨h1, -⟩
      · obtain ⟨B, hB, h2, -⟩ := hd
        have := hD.inv.store.parent b _ ⟨B, hB, h2⟩
        have := (List.getElem?_eq_some_iff.mp hB).1
        omega
      · omega)
    rw [b3] at c3 c5 c6 c7
    obtain ⟨D3, d1, d2, d3, d4, d5⟩ := step_stop H c2 (p := D.store.cursor) (n := n) (by rw [c3]; exact c4.child _ _ _ b6)
    have hG3 : Grows D2 D3 := by
      refine ⟨fun i x h => ⟨x, by rw [d5]; exact h, rfl, rfl⟩, ?_, ?_, ?_, by rw [d4]⟩
      · rintro b m w ⟨B, h⟩; exact ⟨B, by rw [d4]; exact h⟩
      · rintro b m w ⟨B, h⟩; exact ⟨B, by rw [d4]; exact h⟩
      · rintro b m ⟨B, h⟩; exact ⟨B, by rw [d4]; exact h⟩
    have hG := b4.trans (c4.trans hG3)
    have hdec3 : ∀ b m w, Declares D3.store b m w → Declares D.store b m w ∨ D.store.blocks.length ≤ b := by
      rintro b m w ⟨B, h⟩
      rw [d4] at h
      rcases c5.declares b m w ⟨B, h⟩ with h | ⟨h, -⟩ | h
      · rcases b8 _ _ _ h with h | ⟨h, -⟩
        · exact Or.inl h
        · exact Or.inr h.ge
      · exact Or.inr h.ge
      · exact Or.inr (by omega)
    have hcn3 : ∀ b m w, ChildNamed D3.store b m w → ChildNamed D.store b m w ∨ (b = D.store.cursor ∧ m = n) ∨ D.store.blocks.length ≤ b := by
      rintro b m w ⟨B, h⟩
      rw [d4] at h
      rcases c5.child b m w ⟨B, h⟩ with h | ⟨h, -⟩ | h
      · rcases b9 _ _ _ h with h | h
        · exact Or.inl h
        · exact Or.inr (Or.inl h)
      · exact Or.inr (Or.inr h.ge)
      · exact Or.inr (Or.inr (by omega))
    obtain ⟨D', e1, e2, e3, e4, e5, e6, e7⟩ := ih2 parent D3 d2 (by rw [d3]; exact hG.ofClass _ _ hp) (by rw [d3]; exact paramsAt_grows hG hpa) hfit2 (by
      intro m hm w hd
      rw [d3] at hd
      rcases hdec3 _ _ _ hd with hd | hd
      · exact hs m (by simpa [Items.settings] using hm) w hd
      · omega) (by
      intro m hm b hd
      rw [d3] at hd
      rcases hcn3 _ _ _ hd with hd | ⟨-, hd⟩ | hd
      · exact hb m (by simp [Items.blocks, hm]) b hd
      · exact hnr (hd ▸ hm)
      · omega)
    rw [d3] at e3 e5 e6 e7
    have hA3 : Adds D2 D3 D.store.cursor [] [] [] := by
      refine ⟨fun _ _ i x _ _ h => by rw [d5]; exact h, ?_, ?_⟩
      · rintro b m w ⟨B, h⟩; exact Or.inl ⟨B, by rw [← d4]; exact h⟩
      · rintro b m w ⟨B, h⟩; exact Or.inl ⟨B, by rw [← d4]; exact h⟩
    have hl2 := c4.length
    have honly : body.Only classes D2 D.store.blocks.length c := by
      refine ⟨fun m w hd => ?_, fun m w hd => ?_⟩
      · rcases c5.declares _ m w hd with hd | ⟨-, hd⟩ | hd
        · rcases b8 _ _ _ hd with ⟨B, hB, -⟩ | ⟨-, hd⟩
          · exact absurd (List.getElem?_eq_some_iff.mp hB).1 (lt_irrefl _)
          · exact Or.inr hd
        · exact Or.inl hd
        · omega
      · rcases c5.child _ m w hd with hd | ⟨-, hd⟩ | hd
        · rcases b9 _ _ _ hd with ⟨B, hB, h2, -⟩ | ⟨h1, -⟩
          · have := hD.inv.store.parent w _ ⟨B, hB, h2⟩
            have := (List.getElem?_eq_some_iff.mp hB).1
            omega
          · omega
        · exact hd
        · omega
    have hlen := hG.length
    refine ⟨D', ?_, e2, e3, hG.trans e4, ⟨?_, ?_, ?_⟩,
      ⟨⟨D.store.blocks.length, (c4.trans (hG3.trans e4)).child _ _ _ b6, (c4.trans (hG3.trans e4)).ofClass _ _ b7,
        stored_grows e4 e5 d2.inv body _ hcl (stored_grows hG3 hA3 c2.inv body _ hcl c6),
        only_keeps e5 hcl.ne' (by rw [d4]; omega) (only_keeps hA3 hcl.ne' (by omega) honly)⟩, e6⟩, ?_⟩
    · show DeckState.chain (DeckState.step H) (.start c n :: (itemStmts body ++ .stop :: itemStmts rest)) D = _
      have c1' : DeckState.chain (DeckState.step H) (itemStmts body) D1 = (true, D2) := c1
      rw [chain_cons, b1]
      simp only [if_true]
      rw [chain_append, c1']
      simp only [if_true]
      rw [chain_cons, d1]
      exact e1
    · intro b m i x hdm hne hx
      have hblt : b < D.store.blocks.length := by
        obtain ⟨B, hB, -⟩ := hdm
        exact (List.getElem?_eq_some_iff.mp hB).1
      refine e5.keeps b m i x (hG.declares _ _ _ hdm) hne ?_
      rw [d5]
      refine c5.keeps b m i x (b4.declares _ _ _ hdm) (fun h => by omega) ?_
      rw [bh]
      exact kept_append hx
    · intro b m w h
      rcases e5.declares b m w h with h | h | h
      · rcases hdec3 b m w h with h | h
        · exact Or.inl h
        · exact Or.inr (Or.inr h)
      · exact Or.inr (Or.inl h)
      · exact Or.inr (Or.inr (hlen.trans h))
    · intro b m w h
      rcases e5.child b m w h with h | ⟨h1, h2⟩ | h
      · rcases hcn3 b m w h with h | ⟨h1, h2⟩ | h
        · exact Or.inl h
        · exact Or.inr (Or.inl ⟨h1, by simp [Items.blocks, h2]⟩)
        · exact Or.inr (Or.inr h)
      · exact Or.inr (Or.inl ⟨h1, by simp [Items.blocks, h2]⟩)
      · exact Or.inr (Or.inr (hlen.trans h))
    · rintro ⟨hcov, hc1, hc2⟩ i x hx
      rcases e7 hc2 i x hx with h | ⟨y, h1, h2, h3⟩
      · exact Or.inl h
      · rw [d5] at h1
        rcases c7 hc1 i y h1 with h | ⟨z, k1, k2, k3⟩
        · rw [h] at h2; cases h2
        · rcases bi i z k1 with h | h | ⟨d, specs, q1, q2, q, q3, q4, q5, q6, q7⟩
          · rw [h] at k2; cases k2
          · exact Or.inr ⟨z, h, k2, fun m hm hdm => h3 m hm (hG.declares _ _ _ hdm)⟩
          · exact absurd q4 (k3 q.name (hcov d specs q1 q2 q q3 q5 q6 q7))

theorem begin_calm (P : Program ℚ W) : Calm P.begin := by
  unfold Program.begin DeckState.start
  generalize hI : (DeckState.initial P.name P.className P.classes P.restr P.ext P.world P.nextId : DeckState ℚ W) = I
  have h0 : Calm I := by
    subst hI
    intro x hx
    cases hx
  obtain ⟨l, h, -⟩ := getClass_snd I P.className
  rcases hf : (I.getClass P.className).1.factory with _ | specs
  · rw [enterBlock_none P.host I P.name P.className hf, h]
    exact h0
  · rw [enterBlock_some P.host I P.name P.className specs hf]
    exact params_calm P.host (I.getClass P.className).2.store.cursor specs ((I.getClass P.className).2, []) (by rw [h]; exact h0)

/-- what has no value at the beginning is a parameter of the root block -/
theorem begin_unset (P : Program ℚ W) (hnames : DistinctNames P.classes) {i : ℕ} {x : Variable ℚ W} (hx : P.begin.heap[i]? = some x)
    (hi : x.initialised = false) : ∃ d specs, P.classes.lookup P.className = some d ∧ d.factory = some specs ∧ ∃ q ∈ specs,
      Declares P.begin.store 0 q.name i ∧ q.readOnly = false ∧ q.constant = false ∧ q.default = none := by
  unfold Program.begin DeckState.start at hx ⊢
  generalize hI : (DeckState.initial P.name P.className P.classes P.restr P.ext P.world P.nextId : DeckState ℚ W) = I at hx ⊢
  have hS : Vars.Inv I.store := by subst hI; exact Vars.inv_create _ _
  have hlen : I.store.blocks.length = 1 := by subst hI; rfl
  have hcur : I.store.cursor = 0 := by subst hI; rfl
  have hheap : I.heap = [] := by subst hI; rfl
  have hnone : ∀ b n v, ¬ Declares I.store b n v := by
    subst hI
    rintro b n v ⟨B, hB, hm⟩
    have hB : [(⟨P.name, P.className, none, [], [], []⟩ : BlockVars)][b]? = some B := hB
    rw [List.mem_singleton.mp (List.mem_of_getElem? hB)] at hm
    cases hm
  have hC : CInv P.classes I := by subst hI; exact ⟨fun c d h => Or.inl h, fun c d h => h⟩
  obtain ⟨l, h, hl1, d0, hl2, hl3⟩ := getClass_snd I P.className
  have hC1 : CInv P.classes (I.getClass P.className).2 := cinv_append hC hl1 (by rw [h])
  have hs : (I.getClass P.className).2.store = I.store := by rw [h]
  have hh : (I.getClass P.className).2.heap = [] := by rw [h]; exact hheap
  rcases hf : (I.getClass P.className).1.factory with _ | specs
  · rw [enterBlock_none P.host I P.name P.className hf] at hx
    change (I.getClass P.className).2.heap[i]? = some x at hx
    rw [hh] at hx
    cases hx
  · rw [enterBlock_some P.host I P.name P.className specs hf] at hx ⊢
    have hd : P.classes.lookup P.className = some d0 := by
      rcases hC1.1 P.className d0 (by rw [h]; exact hl2) with h' | h'
      · exact h'
      · rw [← hl3, hf] at h'; cases h'
    have hf0 : d0.factory = some specs := by rw [← hl3]; exact hf
    rcases params_new P.host (I.getClass P.className).2.store.cursor specs ((I.getClass P.className).2, []) (by rw [hs, hcur, hlen]; exact Nat.one_pos)
      (by rw [hs]; exact hS) (hnames _ _ _ hd hf0) (by rw [hs]; exact fun q _ v => hnone _ _ v) i x hx with h' | ⟨q, hq, hqd, e, id, rfl⟩
    · rw [show (((I.getClass P.className).2, ([] : List (String × BlockParam))).1.heap) = [] from hh] at h'
      cases h'
    · obtain ⟨q1, q2, q3⟩ := paramVariable_filled P.host q e id hi
      refine ⟨d0, specs, hd, hf0, q, hq, ?_, q1, q2, q3⟩
      conv => arg 2; rw [← hcur, ← hs]
      exact hqd

/-- the state in which the reading of a file begins -/
theorem begin_ready (P : Program ℚ W) : Ready P.classes P.restr P.begin ∧ OfClass P.begin.store 0 P.className ∧
    ∀ b n c, ¬ ChildNamed P.begin.store b n c := by
  have hs := enterBlock_same P.host (DeckState.initial P.name P.className P.classes P.restr P.ext P.world P.nextId : DeckState ℚ W) P.name P.className
  refine ⟨⟨dinv_after P [], (begin_noRefs P).1, binv_after P [], ?_, begin_calm P⟩, ?_, ?_⟩
  · unfold Program.begin DeckState.start
    generalize hI : (DeckState.initial P.name P.className P.classes P.restr P.ext P.world P.nextId : DeckState ℚ W) = I
    have h0 : CInv P.classes I := by
      subst hI
      exact ⟨fun c d h => Or.inl h, fun c d h => h⟩
    obtain ⟨l, h, hl, -⟩ := getClass_snd I P.className
    have h1 : CInv P.classes (I.getClass P.className).2 := cinv_append h0 hl (by rw [h])
    rcases hf : (I.getClass P.className).1.factory with _ | specs
    · rw [enterBlock_none P.host I P.name P.className hf]
      exact h1
    · rw [enterBlock_some P.host I P.name P.className specs hf]
      have g2 := (same_params P.host (I.getClass P.className).2.store.cursor specs ((I.getClass P.className).2, [])).2.2
      refine ⟨fun c d hd => h1.1 c d (by rw [← g2]; exact hd), fun c d hd => ?_⟩
      have := h1.2 c d hd
      rw [← g2] at this
      exact this
  · exact same_ofClass hs ⟨_, rfl, rfl⟩
  · intro b n c h
    obtain ⟨B, h1, h2, -⟩ := (same_child hs b n c).mp h
    have h1 : [(⟨P.name, P.className, none, [], [], []⟩ : BlockVars)][c]? = some B := h1
    rcases c with _ | c
    · cases h1
      cases h2
    · cases h1

theorem items_ne {it : Items} (h : it ≠ .nil) : itemStmts it ≠ [] := by
  cases it with
  | nil => exact absurd rfl h
  | setting => exact List.cons_ne_nil _ _
  | param => exact List.cons_ne_nil _ _
  | block => exact List.cons_ne_nil _ _

theorem begin_paramsAt (P : Program ℚ W) (hnames : DistinctNames P.classes) : ParamsAt P.classes P.begin 0 P.className := by
  intro d specs hd hf q hq hqr hqc
  obtain ⟨-, -, h⟩ := begin_params P hd hf (hnames _ _ _ hd hf)
  obtain ⟨v, x, id, h1, h2⟩ := h q hq
  obtain ⟨t1, t2⟩ := paramVariable_ty P.host q x id hqr hqc
  exact ⟨v, _, h1, h2, t1, t2⟩

end Schnek.Lemma.SettingsText
