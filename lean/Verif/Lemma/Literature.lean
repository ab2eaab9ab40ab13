import Verif.Spec.Literature
import Mathlib.Data.List.Forall2
import Mathlib.Data.List.Nodup

/-! # Lemmas for the literature references -/

namespace Schnek.Lemma.Literature

open Schnek.Literature Schnek.Spec.Literature

/-! ## the manager -/

theorem mem_insertString (s x : String) (l : List String) : x ∈ insertString s l ↔ x = s ∨ x ∈ l := by
  induction l with
  | nil => simp [insertString]
  | cons a l ih =>
      unfold insertString
      split_ifs with h1 h2
      · simp
      · subst h2; simp
      · simp only [List.mem_cons, ih]; tauto

theorem sorted_insertString (s : String) (l : List String) (h : l.Pairwise (· < ·)) : (insertString s l).Pairwise (· < ·) := by
  induction l with
  | nil => simp [insertString]
  | cons a l ih =>
      obtain ⟨h1, h2⟩ := List.pairwise_cons.mp h
      unfold insertString
      split_ifs with h3 h4
      · refine List.pairwise_cons.mpr ⟨?_, h⟩
        intro b hb
        rcases List.mem_cons.mp hb with rfl | hb
        · exact h3
        · exact h3.trans (h1 b hb)
      · exact h
      · refine List.pairwise_cons.mpr ⟨?_, ih h2⟩
        intro b hb
        rcases (mem_insertString s b l).mp hb with rfl | hb
        · exact lt_of_le_of_ne (not_lt.mp h3) (Ne.symm h4)
        · exact h1 b hb

theorem mem_insertRecord (r x : Record) (l : List Record) : x ∈ insertRecord r l ↔ x = r ∨ x ∈ l := by
  induction l with
  | nil => simp [insertRecord]
  | cons a l ih =>
      unfold insertRecord
      split_ifs with h1
      · simp
      · simp only [List.mem_cons, ih]; tauto

theorem sorted_insertRecord (r : Record) (l : List Record) (h : l.Pairwise (fun a b => a.key < b.key)) (hn : ∀ a ∈ l, a.key ≠ r.key) :
    (insertRecord r l).Pairwise (fun a b => a.key < b.key) := by
  induction l with
  | nil => simp [insertRecord]
  | cons a l ih =>
      obtain ⟨h1, h2⟩ := List.pairwise_cons.mp h
      unfold insertRecord
      split_ifs with h3
      · refine List.pairwise_cons.mpr ⟨?_, h⟩
        intro b hb
        rcases List.mem_cons.mp hb with rfl | hb
        · exact h3
        · exact lt_trans h3 (h1 b hb)
      · refine List.pairwise_cons.mpr ⟨?_, ih h2 fun b hb => hn b (List.mem_cons_of_mem _ hb)⟩
        intro b hb
        rcases (mem_insertRecord r b l).mp hb with rfl | hb
        · exact lt_of_le_of_ne (not_lt.mp h3) (hn a List.mem_cons_self)
        · exact h1 b hb

/-- what the records are after the calls -/
structure Inv (records : List Record) (all : List (String × Reference)) : Prop where
  sorted : records.Pairwise (fun a b => a.key < b.key)
  descSorted : ∀ r ∈ records, r.descriptions.Pairwise (· < ·)
  desc : ∀ r ∈ records, ∀ d, d ∈ r.descriptions ↔ ∃ c ∈ all, c.2.bibKey = r.key ∧ c.1 = d
  reference : ∀ r ∈ records, (all.find? fun c => c.2.bibKey = r.key).map Prod.snd = some r.reference
  all : ∀ c ∈ all, ∃ r ∈ records, r.key = c.2.bibKey

theorem inv_add (m : Manager) (all : List (String × Reference)) (d : String) (ref : Reference) (h : Inv m.records all) :
    Inv (m.addReference d ref).records (all ++ [(d, ref)]) := by
  unfold Manager.addReference
  by_cases hk : m.records.any (·.key = ref.bibKey)
  · rw [if_pos hk]
    have hk' : ∃ r ∈ m.records, r.key = ref.bibKey := by simpa using hk
    set f : Record → Record := fun r => if r.key = ref.bibKey then { r with descriptions := insertString d r.descriptions } else r with hf
    have hkey : ∀ r, (f r).key = r.key := by
      intro r; simp only [hf]; split_ifs <;> rfl
    have href : ∀ r, (f r).reference = r.reference := by
      intro r; simp only [hf]; split_ifs <;> rfl
    change Inv (m.records.map f) _
    constructor
    · rw [List.pairwise_map]
      exact h.sorted.imp fun {a b} hab => by rw [hkey, hkey]; exact hab
    · intro r hr
      obtain ⟨r', hr', rfl⟩ := List.mem_map.mp hr
      simp only [hf]
      split_ifs
      · exact sorted_insertString _ _ (h.descSorted r' hr')
      · exact h.descSorted r' hr'
    · intro r hr x
      obtain ⟨r', hr', rfl⟩ := List.mem_map.mp hr
      rw [hkey]
      have := h.desc r' hr' x
      by_cases he : r'.key = ref.bibKey
      · have e : (f r').descriptions = insertString d r'.descriptions := by simp only [hf]; rw [if_pos he]
        rw [e, mem_insertString, this]
        simp only [List.mem_append, List.mem_singleton]
        constructor
        · rintro (rfl | ⟨c, hc, h1, h2⟩)
          · exact ⟨(x, ref), Or.inr rfl, he.symm, rfl⟩
          · exact ⟨c, Or.inl hc, h1, h2⟩
        · rintro ⟨c, hc | rfl, h1, h2⟩
          · exact Or.inr ⟨c, hc, h1, h2⟩
          · exact Or.inl h2.symm
      · have e : (f r').descriptions = r'.descriptions := by simp only [hf]; rw [if_neg he]
        rw [e, this]
        simp only [List.mem_append, List.mem_singleton]
        constructor
        · rintro ⟨c, hc, h1, h2⟩
          exact ⟨c, Or.inl hc, h1, h2⟩
        · rintro ⟨c, hc | rfl, h1, h2⟩
          · exact ⟨c, hc, h1, h2⟩
          · exact absurd h1.symm he
    · intro r hr
      obtain ⟨r', hr', rfl⟩ := List.mem_map.mp hr
      rw [hkey, href, List.find?_append]
      have := h.reference r' hr'
      cases hfd : all.find? (fun c => decide (c.2.bibKey = r'.key)) with
      | none => rw [hfd] at this; simp at this
      | some c => rw [hfd] at this; simpa using this
    · intro c hc
      rcases List.mem_append.mp hc with hc | hc
      · obtain ⟨r, hr, e⟩ := h.all c hc
        exact ⟨f r, List.mem_map_of_mem hr, by rw [hkey, e]⟩
      · rw [List.mem_singleton] at hc
        subst hc
        obtain ⟨r, hr, e⟩ := hk'
        exact ⟨f r, List.mem_map_of_mem hr, by rw [hkey, e]⟩
  · rw [if_neg hk]
    have hk' : ∀ r ∈ m.records, r.key ≠ ref.bibKey := by simpa using hk
    have hnone : ∀ c ∈ all, c.2.bibKey ≠ ref.bibKey := by
      intro c hc e
      obtain ⟨r, hr, e'⟩ := h.all c hc
      exact hk' r hr (e'.trans e)
    constructor
    · exact sorted_insertRecord _ _ h.sorted hk'
    · intro r hr
      rcases (mem_insertRecord _ _ _).mp hr with rfl | hr
      · exact sorted_insertString _ _ List.Pairwise.nil
      · exact h.descSorted r hr
    · intro r hr x
      rcases (mem_insertRecord _ _ _).mp hr with rfl | hr
      · simp only [mem_insertString, List.not_mem_nil, or_false, List.mem_append, List.mem_singleton]
        constructor
        · rintro rfl
          exact ⟨(x, ref), Or.inr rfl, rfl, rfl⟩
        · rintro ⟨c, hc | rfl, h1, h2⟩
          · exact absurd h1 (hnone c hc)
          · exact h2.symm
      · rw [h.desc r hr x]
        simp only [List.mem_append, List.mem_singleton]
        constructor
        · rintro ⟨c, hc, h1, h2⟩
          exact ⟨c, Or.inl hc, h1, h2⟩
        · rintro ⟨c, hc | rfl, h1, h2⟩
          · exact ⟨c, hc, h1, h2⟩
          · exact absurd h1.symm (hk' r hr)
    · intro r hr
      rw [List.find?_append]
      rcases (mem_insertRecord _ _ _).mp hr with rfl | hr
      · have : all.find? (fun c => decide (c.2.bibKey = ref.bibKey)) = none := by
          rw [List.find?_eq_none]
          intro c hc
          simpa using hnone c hc
        simp only [this]
        simp
      · have := h.reference r hr
        cases hfd : all.find? (fun c => decide (c.2.bibKey = r.key)) with
        | none => rw [hfd] at this; simp at this
        | some c => rw [hfd] at this; simpa using this
    · intro c hc
      rcases List.mem_append.mp hc with hc | hc
      · obtain ⟨r, hr, e⟩ := h.all c hc
        exact ⟨r, (mem_insertRecord _ _ _).mpr (Or.inr hr), e⟩
      · rw [List.mem_singleton] at hc
        subst hc
        exact ⟨_, (mem_insertRecord _ _ _).mpr (Or.inl rfl), rfl⟩

theorem inv_foldl (calls all : List (String × Reference)) (m : Manager) (h : Inv m.records all) :
    Inv (calls.foldl (fun m c => m.addReference c.1 c.2) m).records (all ++ calls) := by
  induction calls generalizing m all with
  | nil => simpa using h
  | cons c calls ih =>
      have := ih _ _ (inv_add m all c.1 c.2 h)
      simpa using this

theorem inv_run (calls : List (String × Reference)) : Inv (Manager.run calls).records (added calls) := by
  have h0 : Inv ([] : List Record) [] := ⟨List.Pairwise.nil, by simp, by simp, by simp, by simp⟩
  have h1 := inv_add ⟨[], "Algorithms and Methods",
    "The following algorithms and methods have been used during this simulation run."⟩ [] 
    "Parallel simulation framework based on the Schnek Library" schnekReference h0
  exact inv_foldl calls _ _ h1

theorem Inv.key {records : List Record} {all : List (String × Reference)} (h : Inv records all) (r : Record) (hr : r ∈ records) :
    r.reference.bibKey = r.key ∧ ∃ c ∈ all, c.2 = r.reference := by
  have := h.reference r hr
  cases hfd : all.find? (fun c => decide (c.2.bibKey = r.key)) with
  | none => rw [hfd] at this; simp at this
  | some c =>
      rw [hfd] at this
      have e : c.2 = r.reference := by simpa using this
      have h1 := List.find?_some hfd
      rw [← e]
      exact ⟨by simpa using h1, c, List.mem_of_find?_eq_some hfd, rfl⟩

/-! ## reading the LaTeX file -/

theorem tex_text (s : TexReader) (l : List Char) (hm : s.mode = .text) (hl : ∀ c ∈ l, c ≠ '\\' ∧ c ≠ '\n') :
    l.foldl TexReader.next s = { s with line := s.line ++ l } := by
  induction l generalizing s with
  | nil => simp
  | cons c l ih =>
      obtain ⟨h1, h2⟩ := hl c List.mem_cons_self
      rw [List.foldl_cons, ih]
      · simp [TexReader.next, hm, h1, h2]
      · simp [TexReader.next, hm, h1, h2]
      · exact fun c hc => hl c (List.mem_cons_of_mem _ hc)

/-- several lines without commands -/
theorem tex_plain (s : TexReader) (l : List Char) (hm : s.mode = .text) (hl : ∀ c ∈ l, c ≠ '\\') :
    ∃ ls line, l.foldl TexReader.next s = { s with lines := ls, line := line } := by
  induction l generalizing s with
  | nil => exact ⟨s.lines, s.line, rfl⟩
  | cons c l ih =>
      have h1 := hl c List.mem_cons_self
      rw [List.foldl_cons]
      by_cases h2 : c = '\n'
      · obtain ⟨ls, line, e⟩ := ih (s.next c) (by simp [TexReader.next, hm, h2]) fun c hc => hl c (List.mem_cons_of_mem _ hc)
        exact ⟨ls, line, by rw [e]; simp [TexReader.next, hm, h2]⟩
      · obtain ⟨ls, line, e⟩ := ih (s.next c) (by simp [TexReader.next, hm, h1, h2]) fun c hc => hl c (List.mem_cons_of_mem _ hc)
        exact ⟨ls, line, by rw [e]; simp [TexReader.next, hm, h1, h2]⟩

theorem tex_lines (s : TexReader) (ds : List String) (hm : s.mode = .text) (he : s.line = []) (hl : ∀ d ∈ ds, PlainLine d) :
    (ds.flatMap fun d => d.toList ++ "\n".toList).foldl TexReader.next s = { s with lines := s.lines ++ ds.map String.toList } := by
  induction ds generalizing s with
  | nil => simp
  | cons d ds ih =>
      rw [List.flatMap_cons, List.foldl_append, List.foldl_append, tex_text s d.toList hm (hl d List.mem_cons_self)]
      rw [show "\n".toList = ['\n'] from rfl, List.foldl_cons, List.foldl_nil]
      have e : TexReader.next { s with line := s.line ++ d.toList } '\n' = { s with lines := s.lines ++ [d.toList], line := [] } := by
        simp [TexReader.next, hm, he]
      rw [e, ← show "\n".toList = ['\n'] from rfl, ih]
      · simp [he]
      · exact hm
      · rfl
      · exact fun d hd => hl d (List.mem_cons_of_mem _ hd)

theorem tex_cite (s : TexReader) (k l : List Char) (hm : s.mode = .cite k) (hl : ∀ c ∈ l, c ≠ '}') :
    l.foldl TexReader.next s = { s with mode := .cite (k ++ l) } := by
  induction l generalizing s k with
  | nil => simp [← hm]
  | cons c l ih =>
      have h1 := hl c List.mem_cons_self
      rw [List.foldl_cons, ih (s.next c) (k ++ [c])]
      · simp [TexReader.next, hm, h1]
      · simp [TexReader.next, hm, h1]
      · exact fun c hc => hl c (List.mem_cons_of_mem _ hc)

theorem tex_item (s : TexReader) (hm : s.mode = .text) :
    "\\item ".toList.foldl TexReader.next s = { s with lines := [], line := [] } := by
  obtain ⟨m, l, n, i⟩ := s
  subst hm
  rfl

theorem tex_begin_cite (s : TexReader) (hm : s.mode = .text) :
    "\\cite{".toList.foldl TexReader.next s = { s with mode := .cite [] } := by
  obtain ⟨m, l, n, i⟩ := s
  subst hm
  rfl

theorem tex_record (s : TexReader) (r : Record) (hm : s.mode = .text) (hd : ∀ d ∈ r.descriptions, PlainLine d)
    (hk : PlainKey r.key) :
    ∃ ls line, (writeItem r).foldl TexReader.next s =
      ⟨.text, ls, line, s.items ++ [(r.descriptions.map String.toList, r.key.toList)]⟩ := by
  unfold writeItem
  rw [List.foldl_append, List.foldl_append, List.foldl_append, List.foldl_append, tex_item s hm,
    tex_lines { s with lines := [], line := [] } _ hm rfl hd, tex_begin_cite ⟨s.mode, [] ++ r.descriptions.map String.toList, [], s.items⟩ hm, tex_cite _ [] _ rfl fun c hc => (hk c hc).2.1]
  exact ⟨_, _, rfl⟩

theorem tex_records (s : TexReader) (rs : List Record) (hm : s.mode = .text) (hd : ∀ r ∈ rs, ∀ d ∈ r.descriptions, PlainLine d)
    (hk : ∀ r ∈ rs, PlainKey r.key) :
    ∃ ls line, (rs.flatMap writeItem).foldl TexReader.next s =
      ⟨.text, ls, line, s.items ++ rs.map fun r => (r.descriptions.map String.toList, r.key.toList)⟩ := by
  induction rs generalizing s with
  | nil => exact ⟨s.lines, s.line, by simp [← hm]⟩
  | cons r rs ih =>
      obtain ⟨ls, line, e⟩ := tex_record s r hm (hd r List.mem_cons_self) (hk r List.mem_cons_self)
      obtain ⟨ls', line', e'⟩ := ih ((writeItem r).foldl TexReader.next s) (by rw [e]) (fun r hr => hd r (List.mem_cons_of_mem _ hr))
        (fun r hr => hk r (List.mem_cons_of_mem _ hr))
      rw [List.flatMap_cons, List.foldl_append, e', e]
      exact ⟨ls', line', by simp⟩

theorem plain_toList {s : String} (h : PlainLine s) : ∀ c ∈ s.toList, c ≠ '\\' := fun c hc => (h c hc).1

/-- a constant text with commands other than `\cite`; the last argument is checked by evaluation -/
theorem tex_const (s : TexReader) (t : List Char) (hm : s.mode = .text)
    (h : ∀ ls line its, (t.foldl TexReader.next ⟨.text, ls, line, its⟩).mode = .text ∧
      (t.foldl TexReader.next ⟨.text, ls, line, its⟩).items = its) :
    ∃ ls line, t.foldl TexReader.next s = ⟨.text, ls, line, s.items⟩ := by
  obtain ⟨m, l, n, i⟩ := s
  subst hm
  obtain ⟨h1, h2⟩ := h l n i
  refine ⟨(t.foldl TexReader.next ⟨.text, l, n, i⟩).lines, (t.foldl TexReader.next ⟨.text, l, n, i⟩).line, ?_⟩
  generalize t.foldl TexReader.next ⟨.text, l, n, i⟩ = x at h1 h2 ⊢
  obtain ⟨a, b, c, d⟩ := x
  simp only at h1 h2 ⊢
  subst h1 h2
  rfl

theorem items_information (m : Manager) (bibfile : String) (ht : PlainLine m.title) (hs : PlainLine m.subtitle)
    (hb : PlainLine bibfile) (hd : ∀ r ∈ m.records, ∀ d ∈ r.descriptions, PlainLine d) (hk : ∀ r ∈ m.records, PlainKey r.key) :
    items (m.writeInformation bibfile) = m.records.map fun r => (r.descriptions.map String.toList, r.key.toList) := by
  unfold items Manager.writeInformation
  simp only [List.foldl_append]
  obtain ⟨l1, n1, e1⟩ := tex_const ⟨.text, [], [], []⟩ "\\documentclass{article}\n".toList rfl (fun _ _ _ => ⟨rfl, rfl⟩)
  rw [e1]
  obtain ⟨l1, n1, e1⟩ := tex_const ⟨.text, l1, n1, []⟩ "\\begin{document}\n".toList rfl (fun _ _ _ => ⟨rfl, rfl⟩)
  rw [e1]
  obtain ⟨l1, n1, e1⟩ := tex_const ⟨.text, l1, n1, []⟩ "\\section*{".toList rfl (fun _ _ _ => ⟨rfl, rfl⟩)
  rw [e1, tex_text _ _ rfl ht]
  dsimp only
  obtain ⟨l1, n1, e1⟩ := tex_const ⟨.text, l1, n1 ++ m.title.toList, []⟩ "}\n".toList rfl (fun _ _ _ => ⟨rfl, rfl⟩)
  rw [e1, tex_text _ _ rfl hs]
  dsimp only
  obtain ⟨l1, n1, e1⟩ := tex_const ⟨.text, l1, n1 ++ m.subtitle.toList, []⟩ "\n\\begin{itemize}".toList rfl (fun _ _ _ => ⟨rfl, rfl⟩)
  rw [e1]
  obtain ⟨l1, n1, e1⟩ := tex_records ⟨.text, l1, n1, []⟩ m.records rfl hd hk
  rw [e1]
  dsimp only
  generalize m.records.map (fun r => (r.descriptions.map String.toList, r.key.toList)) = R
  rw [List.nil_append]
  obtain ⟨l1, n1, e1⟩ := tex_const ⟨.text, l1, n1, R⟩ "\\end{itemize}\n".toList rfl (fun _ _ _ => ⟨rfl, rfl⟩)
  rw [e1]
  obtain ⟨l1, n1, e1⟩ := tex_const ⟨.text, l1, n1, R⟩ "\\bibliographystyle{acm}\n".toList rfl (fun _ _ _ => ⟨rfl, rfl⟩)
  rw [e1]
  obtain ⟨l1, n1, e1⟩ := tex_const ⟨.text, l1, n1, R⟩ "\\bibliography{".toList rfl (fun _ _ _ => ⟨rfl, rfl⟩)
  rw [e1, tex_text _ _ rfl hb]
  dsimp only
  obtain ⟨l1, n1, e1⟩ := tex_const ⟨.text, l1, n1 ++ bibfile.toList, R⟩ "}\n".toList rfl (fun _ _ _ => ⟨rfl, rfl⟩)
  rw [e1]
  obtain ⟨l1, n1, e1⟩ := tex_const ⟨.text, l1, n1, R⟩ "\\end{document}\n".toList rfl (fun _ _ _ => ⟨rfl, rfl⟩)
  rw [e1]

/-! ## reading the BibTeX file -/

theorem bib_value (s : BibReader) (n : List Char) (d d' : ℕ) (t l : List Char) (hm : s.mode = .value n d t)
    (hl : openBraces d l = some d') : l.foldl BibReader.next s = { s with mode := .value n d' (t ++ l) } := by
  induction l generalizing s d t with
  | nil =>
      simp only [openBraces, Option.some.injEq] at hl
      subst hl
      simp [← hm]
  | cons c l ih =>
      rw [List.foldl_cons]
      unfold openBraces at hl
      by_cases h1 : c = '{'
      · rw [if_pos h1] at hl
        rw [ih (s.next c) (d + 1) (t ++ [c]) (by simp [BibReader.next, hm, h1]) hl]
        simp [BibReader.next, hm, h1]
      · rw [if_neg h1] at hl
        by_cases h2 : c = '}'
        · rw [if_pos h2] at hl
          cases d with
          | zero => simp at hl
          | succ d =>
              rw [ih (s.next c) d (t ++ [c]) (by simp [BibReader.next, hm, h2]) hl]
              simp [BibReader.next, hm, h2]
        · rw [if_neg h2] at hl
          rw [ih (s.next c) d (t ++ [c]) (by simp [BibReader.next, hm, h1, h2]) hl]
          simp [BibReader.next, hm, h1, h2]

theorem bib_name (s : BibReader) (f : Field) (hm : s.mode = .gap) :
    (",\n  ".toList ++ f.name.toList ++ "={".toList).foldl BibReader.next s = { s with mode := .value f.name.toList 0 [] } := by
  obtain ⟨m, e, es⟩ := s
  subst hm
  cases f <;> rfl

theorem bib_name_key (s : BibReader) (f : Field) (hm : s.mode = .key) :
    (",\n  ".toList ++ f.name.toList ++ "={".toList).foldl BibReader.next s = { s with mode := .value f.name.toList 0 [] } := by
  obtain ⟨m, e, es⟩ := s
  subst hm
  cases f <;> rfl

/-- the fields of a reference, in the order given -/
def fieldsOf (r : Reference) (fs : List Field) : List (List Char × List Char) :=
  (fs.filter fun f => decide (r.get f ≠ "")).map fun f => (f.name.toList, (r.get f).toList)

theorem bib_fields (s : BibReader) (r : Reference) (fs : List Field) (hm : s.mode = .gap ∨ s.mode = .key)
    (hv : ∀ f, Balanced (r.get f).toList) :
    ∃ m, (m = .gap ∨ m = .key) ∧ (fs.flatMap (writeField r)).foldl BibReader.next s =
      ⟨m, { s.entry with fields := s.entry.fields ++ fieldsOf r fs }, s.entries⟩ := by
  induction fs generalizing s with
  | nil => exact ⟨s.mode, hm, by simp [fieldsOf]⟩
  | cons f fs ih =>
      rw [List.flatMap_cons, List.foldl_append]
      by_cases he : r.get f = ""
      · have e : writeField r f = [] := by unfold writeField; rw [if_pos he]
        rw [e, List.foldl_nil]
        have e' : fieldsOf r (f :: fs) = fieldsOf r fs := by simp [fieldsOf, he]
        rw [e']
        exact ih s hm
      · have e : writeField r f = ",\n  ".toList ++ f.name.toList ++ "={".toList ++ (r.get f).toList ++ "}".toList := by
          unfold writeField; rw [if_neg he]
        have e1 : (writeField r f).foldl BibReader.next s =
            ⟨.gap, { s.entry with fields := s.entry.fields ++ [(f.name.toList, (r.get f).toList)] }, s.entries⟩ := by
          rw [e, List.foldl_append, List.foldl_append]
          have : (",\n  ".toList ++ f.name.toList ++ "={".toList).foldl BibReader.next s = { s with mode := .value f.name.toList 0 [] } := by
            rcases hm with hm | hm
            · exact bib_name s f hm
            · exact bib_name_key s f hm
          rw [this, bib_value _ f.name.toList 0 0 [] _ rfl (hv f)]
          rfl
        have e' : fieldsOf r (f :: fs) = (f.name.toList, (r.get f).toList) :: fieldsOf r fs := by simp [fieldsOf, he]
        obtain ⟨m, h1, h2⟩ := ih ((writeField r f).foldl BibReader.next s) (by rw [e1]; exact Or.inl rfl)
        refine ⟨m, h1, ?_⟩
        rw [h2, e1, e']
        simp

theorem bib_key (s : BibReader) (l : List Char) (hm : s.mode = .key) (hl : ∀ c ∈ l, c ≠ ',' ∧ c ≠ '}' ∧ space c = false) :
    l.foldl BibReader.next s = { s with entry := { s.entry with key := s.entry.key ++ l } } := by
  induction l generalizing s with
  | nil => simp
  | cons c l ih =>
      obtain ⟨h1, h2, h3⟩ := hl c List.mem_cons_self
      rw [List.foldl_cons, ih (s.next c)]
      · simp [BibReader.next, hm, h1, h2, h3]
      · simp [BibReader.next, hm, h1, h2, h3]
      · exact fun c hc => hl c (List.mem_cons_of_mem _ hc)

theorem bib_type (s : BibReader) (t : PublicationType) (hm : s.mode = .outside) :
    ("@".toList ++ t.string.toList ++ "{".toList).foldl BibReader.next s = ⟨.key, ⟨t.string.toList, [], []⟩, s.entries⟩ := by
  have h : ∀ (x : BibReader) (l : List Char), x.mode = .type → (∀ c ∈ l, c ≠ '{') →
      l.foldl BibReader.next x = { x with entry := { x.entry with type := x.entry.type ++ l } } := by
    intro x l
    induction l generalizing x with
    | nil => intros; simp
    | cons c l ih =>
        intro h1 h2
        have h3 := h2 c List.mem_cons_self
        rw [List.foldl_cons, ih (x.next c)]
        · simp [BibReader.next, h1, h3]
        · simp [BibReader.next, h1, h3]
        · exact fun c hc => h2 c (List.mem_cons_of_mem _ hc)
  have h1 : "@".toList.foldl BibReader.next s = ⟨.type, ⟨[], [], []⟩, s.entries⟩ := by
    rw [show "@".toList = ['@'] from rfl]
    simp [BibReader.next, hm]
  rw [List.foldl_append, List.foldl_append, h1, h _ t.string.toList rfl (by cases t <;> decide)]
  rw [show "{".toList = ['{'] from rfl]
  simp [BibReader.next]

/-- the entry that is read -/
def entryOf (t : PublicationType) (r : Reference) : Entry := ⟨t.string.toList, r.bibKey.toList, fieldsOf r fieldOrder⟩

theorem bib_entry (s : BibReader) (r : Reference) (t : PublicationType) (hm : s.mode = .outside) (ht : r.publType = some t)
    (hk : PlainKey r.bibKey) (hv : ∀ f, Balanced (r.get f).toList) :
    ∃ text e, write r = some text ∧ (text ++ "\n".toList).foldl BibReader.next s = ⟨.outside, e, s.entries ++ [entryOf t r]⟩ := by
  refine ⟨_, entryOf t r, by rw [write, ht, Option.map_some], ?_⟩
  rw [List.foldl_append, List.foldl_append, List.foldl_append, List.foldl_append, bib_type s t hm, bib_key _ _ rfl hk]
  obtain ⟨m, h1, h2⟩ := bib_fields ⟨.key, ⟨t.string.toList, [] ++ r.bibKey.toList, []⟩, s.entries⟩ r fieldOrder (Or.inr rfl) hv
  rw [h2]
  rcases h1 with rfl | rfl <;> rfl

theorem bib_records (s : BibReader) (rs : List Record) (hm : s.mode = .outside) (ht : ∀ r ∈ rs, r.reference.publType.isSome)
    (hk : ∀ r ∈ rs, PlainKey r.reference.bibKey) (hv : ∀ r ∈ rs, ∀ f, Balanced (r.reference.get f).toList) :
    ∃ text e es, writeRecords rs = some text ∧ text.foldl BibReader.next s = ⟨.outside, e, s.entries ++ es⟩ ∧
      List.Forall₂ (fun r x => ∃ t, r.reference.publType = some t ∧ x = entryOf t r.reference) rs es := by
  induction rs generalizing s with
  | nil => exact ⟨[], s.entry, [], rfl, by simp [← hm], List.Forall₂.nil⟩
  | cons r rs ih =>
      obtain ⟨t, ht'⟩ := Option.isSome_iff_exists.mp (ht r List.mem_cons_self)
      obtain ⟨text, e, h1, h2⟩ := bib_entry s r.reference t hm ht' (hk r List.mem_cons_self) (hv r List.mem_cons_self)
      obtain ⟨text', e', es, h1', h2', h3'⟩ := ih ⟨.outside, e, s.entries ++ [entryOf t r.reference]⟩ rfl
        (fun r hr => ht r (List.mem_cons_of_mem _ hr)) (fun r hr => hk r (List.mem_cons_of_mem _ hr))
        (fun r hr => hv r (List.mem_cons_of_mem _ hr))
      refine ⟨text ++ "\n".toList ++ text', e', entryOf t r.reference :: es, ?_, ?_, List.Forall₂.cons ⟨t, ht', rfl⟩ h3'⟩
      · simp only [writeRecords, h1, h1']
        rfl
      · rw [List.foldl_append, h2, h2']
        simp

theorem name_injective : Function.Injective fun f : Field => f.name.toList := by
  intro f g h
  cases f <;> cases g <;> first | rfl | (exact absurd h (by decide))

theorem mem_fieldOrder (f : Field) : f ∈ fieldOrder := by cases f <;> decide

theorem fieldOrder_nodup : fieldOrder.Nodup := by decide

theorem tells_entryOf (t : PublicationType) (r : Reference) (ht : r.publType = some t) : Tells r (entryOf t r) := by
  refine ⟨⟨t, ht, rfl⟩, rfl, ?_, ?_⟩
  · intro n v
    simp only [entryOf, fieldsOf, List.mem_map, List.mem_filter, decide_eq_true_eq, Prod.mk.injEq]
    constructor
    · rintro ⟨f, ⟨_, h⟩, rfl, rfl⟩
      exact ⟨f, rfl, rfl, h⟩
    · rintro ⟨f, rfl, rfl, h⟩
      exact ⟨f, ⟨mem_fieldOrder f, h⟩, rfl, rfl⟩
  · simp only [entryOf, fieldsOf, List.map_map]
    exact (List.nodup_map_iff name_injective).mpr (fieldOrder_nodup.filter _)

theorem entries_bibtex (m : Manager) (ht : ∀ r ∈ m.records, r.reference.publType.isSome)
    (hk : ∀ r ∈ m.records, PlainKey r.reference.bibKey) (hv : ∀ r ∈ m.records, ∀ f, Balanced (r.reference.get f).toList) :
    ∃ text, m.writeBibTex = some text ∧
      List.Forall₂ (fun r x => Tells r.reference x) m.records (entries text) := by
  obtain ⟨text, e, es, h1, h2, h3⟩ := bib_records ⟨.outside, ⟨[], [], []⟩, []⟩ m.records rfl ht hk hv
  refine ⟨text, h1, ?_⟩
  unfold entries
  rw [h2]
  simp only [List.nil_append]
  refine List.Forall₂.imp ?_ h3
  rintro r x ⟨t, h, rfl⟩
  exact tells_entryOf t _ h

theorem none_of_uninitialised (rs : List Record) (r : Record) (hr : r ∈ rs) (h : r.reference.publType = none) : writeRecords rs = none := by
  induction rs with
  | nil => simp at hr
  | cons a rs ih =>
      rcases List.mem_cons.mp hr with rfl | hr
      · simp [writeRecords, write, h]
      · have := ih hr
        simp only [writeRecords, this]
        cases write a.reference <;> rfl

theorem title_foldl (l : List (String × Reference)) (m : Manager) : (l.foldl (fun m c => m.addReference c.1 c.2) m).title = m.title ∧
    (l.foldl (fun m c => m.addReference c.1 c.2) m).subtitle = m.subtitle := by
  induction l generalizing m with
  | nil => exact ⟨rfl, rfl⟩
  | cons a l ih =>
      rw [List.foldl_cons, (ih _).1, (ih _).2]
      unfold Manager.addReference
      split_ifs <;> exact ⟨rfl, rfl⟩

theorem title_run (calls : List (String × Reference)) : (Manager.run calls).title = "Algorithms and Methods" ∧
    (Manager.run calls).subtitle = "The following algorithms and methods have been used during this simulation run." := by
  unfold Manager.run
  rw [(title_foldl _ _).1, (title_foldl _ _).2]
  exact ⟨rfl, rfl⟩

theorem keys_of_tells (rs : List Record) (es : List Entry) (h : List.Forall₂ (fun r x => Tells r.reference x) rs es)
    (hk : ∀ r ∈ rs, r.reference.bibKey = r.key) : es.map Entry.key = rs.map fun r => r.key.toList := by
  induction h with
  | nil => rfl
  | cons hx _ ih =>
      rw [List.map_cons, List.map_cons, ih fun r hr => hk r (List.mem_cons_of_mem _ hr), hx.key, hk _ List.mem_cons_self]

theorem mem_of_tells (rs : List Record) (es : List Entry) (h : List.Forall₂ (fun r x => Tells r.reference x) rs es) (e : Entry)
    (he : e ∈ es) : ∃ r ∈ rs, Tells r.reference e := by
  induction h with
  | nil => simp at he
  | cons hx _ ih =>
      rcases List.mem_cons.mp he with rfl | he
      · exact ⟨_, List.mem_cons_self, hx⟩
      · obtain ⟨r, hr, h⟩ := ih he
        exact ⟨r, List.mem_cons_of_mem _ hr, h⟩

end Schnek.Lemma.Literature
