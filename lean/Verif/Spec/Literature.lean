import Verif.Model.Literature

/-!
# Specification of the literature references

Readers for the two files a program writes, and the parameters of the constructors. The readers know BibTeX and LaTeX, not the
program: they go through the characters of a file from left to right.
-/

namespace Schnek.Spec.Literature

open Schnek.Literature

/-! ## BibTeX -/

/-- an entry of a BibTeX file -/
structure Entry where
  type : List Char
  key : List Char
  fields : List (List Char × List Char)
deriving DecidableEq

/-- where a reader of a BibTeX file is -/
inductive BibMode
  | outside
  /-- after `@` -/
  | type
  /-- after `@type{` -/
  | key
  /-- between fields -/
  | gap
  /-- in the name of a field -/
  | name (text : List Char)
  /-- after `name=` -/
  | equals (name : List Char)
  /-- in the value, after `name={`; `depth` braces have been opened in the value and not been closed -/
  | value (name : List Char) (depth : ℕ) (text : List Char)

/-- a reader of a BibTeX file: where it is, the entry it is reading and what it has read -/
structure BibReader where
  mode : BibMode
  entry : Entry
  entries : List Entry

/-- white space between the parts of an entry -/
def space (c : Char) : Bool := c = ' ' || c = '\n'

/-- one character of a BibTeX file -/
def BibReader.next (s : BibReader) (c : Char) : BibReader :=
  match s.mode with
  | .outside => if c = '@' then ⟨.type, ⟨[], [], []⟩, s.entries⟩ else s
  | .type => if c = '{' then { s with mode := .key } else { s with entry := { s.entry with type := s.entry.type ++ [c] } }
  | .key =>
      if c = ',' then { s with mode := .gap }
      else if c = '}' then ⟨.outside, s.entry, s.entries ++ [s.entry]⟩
      else if space c then s
      else { s with entry := { s.entry with key := s.entry.key ++ [c] } }
  | .gap =>
      if c = '}' then ⟨.outside, s.entry, s.entries ++ [s.entry]⟩
      else if c = ',' || space c then s
      else { s with mode := .name [c] }
  | .name t => if c = '=' then { s with mode := .equals t } else { s with mode := .name (t ++ [c]) }
  | .equals n => if c = '{' then { s with mode := .value n 0 [] } else s
  | .value n d t =>
      if c = '{' then { s with mode := .value n (d + 1) (t ++ [c]) }
      else if c = '}' then
        match d with
        | 0 => ⟨.gap, { s.entry with fields := s.entry.fields ++ [(n, t)] }, s.entries⟩
        | d + 1 => { s with mode := .value n d (t ++ [c]) }
      else { s with mode := .value n d (t ++ [c]) }

/-- the entries of a BibTeX file -/
def entries (file : List Char) : List Entry := (file.foldl BibReader.next ⟨.outside, ⟨[], [], []⟩, []⟩).entries

/-- how many braces are open after a text, if as many are open before it; `none`: one has been closed that has not been opened -/
def openBraces : ℕ → List Char → Option ℕ
  | d, [] => some d
  | d, c :: l =>
      if c = '{' then openBraces (d + 1) l
      else if c = '}' then match d with | 0 => none | d + 1 => openBraces d l
      else openBraces d l

/-- the braces of a text match -/
def Balanced (v : List Char) : Prop := openBraces 0 v = some 0

/-- characters a BibTeX key may consist of -/
def PlainKey (k : String) : Prop := ∀ c ∈ k.toList, c ≠ ',' ∧ c ≠ '}' ∧ space c = false

/-- the entry says the same as the reference: type, key, and all fields that are not empty, each once -/
structure Tells (r : Reference) (e : Entry) : Prop where
  type : ∃ t, r.publType = some t ∧ e.type = t.string.toList
  key : e.key = r.bibKey.toList
  fields : ∀ n v, (n, v) ∈ e.fields ↔ ∃ f : Field, n = f.name.toList ∧ v = (r.get f).toList ∧ r.get f ≠ ""
  once : (e.fields.map Prod.fst).Nodup

/-! ## LaTeX -/

/-- where a reader of a LaTeX file is -/
inductive TexMode
  | text
  /-- in the name of a command -/
  | command (name : List Char)
  /-- after `\cite{` -/
  | cite (key : List Char)

/-- a reader of a LaTeX file: where it is, the lines since the last `\item`, the line it is reading, and the lines and the key of every
`\cite` so far -/
structure TexReader where
  mode : TexMode
  lines : List (List Char)
  line : List Char
  items : List (List (List Char) × List Char)

/-- one character of a LaTeX file -/
def TexReader.next (s : TexReader) (c : Char) : TexReader :=
  match s.mode with
  | .text =>
      if c = '\\' then { s with mode := .command [] }
      else if c = '\n' then { s with lines := s.lines ++ [s.line], line := [] }
      else { s with line := s.line ++ [c] }
  | .command n =>
      if c.isAlpha then { s with mode := .command (n ++ [c]) }
      else if n = ['i', 't', 'e', 'm'] then { s with mode := .text, lines := [], line := [] }
      else if n = ['c', 'i', 't', 'e'] ∧ c = '{' then { s with mode := .cite [] }
      else { s with mode := .text }
  | .cite k => if c = '}' then { s with mode := .text, items := s.items ++ [(s.lines, k)] } else { s with mode := .cite (k ++ [c]) }

/-- for every `\cite` of a LaTeX file the lines between the `\item` before it and the `\cite`, and the key -/
def items (file : List Char) : List (List (List Char) × List Char) :=
  (file.foldl TexReader.next ⟨.text, [], [], []⟩).items

/-- one line of text without LaTeX commands -/
def PlainLine (s : String) : Prop := ∀ c ∈ s.toList, c ≠ '\\' ∧ c ≠ '\n'

/-! ## references -/

/-- what is added during a run: the reference of the library itself comes first -/
def added (calls : List (String × Reference)) : List (String × Reference) :=
  ("Parallel simulation framework based on the Schnek Library", schnekReference) :: calls

/-- the parameters of the constructors, by the names they have in the header -/
def parameters : PublicationType → List Field
  | .article => [.author, .title, .journal, .year, .volume, .pages, .number, .month, .note, .key]
  | .book => [.author, .editor, .title, .publisher, .year, .volume, .number, .series, .address, .edition, .month, .note, .key]
  | .booklet => [.title, .author, .howpublished, .address, .month, .year, .note, .key]
  | .inbook => [.author, .editor, .title, .chapter, .pages, .publisher, .year, .volume, .number, .series, .type, .address, .edition,
      .month, .note, .key]
  | .incollection => [.author, .title, .booktitle, .publisher, .year, .editor, .volume, .number, .series, .type, .chapter, .pages,
      .address, .edition, .month, .note, .key]
  | .inproceedings => [.author, .title, .booktitle, .year, .editor, .volume, .number, .series, .pages, .address, .month, .organization,
      .publisher, .note, .key]
  | .manual => [.title, .author, .organization, .address, .edition, .year, .publisher, .note, .key]
  | .mastersthesis => [.author, .title, .school, .year, .type, .address, .month, .note, .key]
  | .misc => [.author, .title, .howpublished, .month, .year, .note, .key]
  | .phdthesis => [.author, .title, .school, .year, .type, .address, .month, .note, .key]
  | .proceedings => [.title, .year, .editor, .volume, .number, .series, .address, .month, .organization, .publisher, .note, .key]
  | .techreport => [.author, .title, .institution, .year, .type, .number, .address, .month, .note, .key]
  | .unpublished => [.author, .title, .note, .year, .month, .key]
/-- the reference has the given type and key, and the value of every field is the argument of that name; fields that are no parameter
are empty -/
structure Made (t : PublicationType) (key : String) (args : Field → String) (r : Reference) : Prop where
  type : r.publType = some t
  key : r.bibKey = key
  fields : ∀ f, r.get f = if f ∈ parameters t then args f else ""

end Schnek.Spec.Literature
