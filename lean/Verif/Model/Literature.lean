import Mathlib.Data.String.Basic

/-!
# Model of the literature references

`src/tools/literature.hpp`, `src/tools/literature.cpp`

A class that implements a published method adds a reference; at the end of a run the program writes a LaTeX document with everything that
has been used, and a BibTeX file with the references.

Simplifications: the 27 strings of a reference are a function from the names of the members. What a program writes to an `std::ostream` is
a list of characters. `std::map` and `std::set` are lists in increasing order; `std::string` is ordered by bytes, `String` by characters,
which is the same order for UTF-8. The global `operator<<` (literature.cpp 84-117) is hidden by the one in the namespace and never used.
-/

namespace Schnek.Literature

/-- `LiteratureReference::PublicationType`: literature.hpp 43-46 -/
inductive PublicationType
  | article | book | booklet | inbook | incollection | inproceedings | manual | mastersthesis | misc | phdthesis | proceedings
  | techreport | unpublished
deriving DecidableEq

/-- the members that are written to an entry: literature.hpp 50-76 -/
inductive Field
  | address | annote | author | booktitle | chapter | crossref | edition | editor | eprint | howpublished | institution | journal
  | key | month | note | number | organization | pages | publisher | school | series | title | type | url | doi | volume | year
deriving DecidableEq

/-- `LiteratureReference`: literature.hpp 41-79. `publType` is `none` as long as it has not been initialised. -/
structure Reference where
  bibKey : String
  publType : Option PublicationType
  get : Field → String

/-- `LiteratureReference(bibKey_)`: literature.hpp 82. Strings are empty, `publType` is not initialised. -/
def Reference.new (bibKey : String) : Reference := ⟨bibKey, none, fun _ => ""⟩

/-- `setPublicationType`: literature.hpp 298-301 -/
def Reference.setPublicationType (r : Reference) (t : PublicationType) : Reference := { r with publType := some t }

/-- `setAddress`, …, `setYear`: literature.hpp 303-436 -/
def Reference.set (r : Reference) (f : Field) (v : String) : Reference := { r with get := Function.update r.get f v }

/-! ## constructors for the types of publications -/

/-- `LiteratureArticle`: literature.hpp 441-463 -/
def article (bibKey author title journal year volume pages number month note' key' : String) : Reference :=
  ((Reference.new bibKey).setPublicationType .article)
    |>.set .author author
    |>.set .title title
    |>.set .journal journal
    |>.set .year year
    |>.set .volume volume
    |>.set .number number
    |>.set .pages pages
    |>.set .month month
    |>.set .note note'
    |>.set .key key'

/-- `LiteratureBook`: literature.hpp 465-489 -/
def book (bibKey author editor title publisher year volume number series address edition month note' key' : String) : Reference :=
  ((Reference.new bibKey).setPublicationType .book)
    |>.set .author author
    |>.set .editor editor
    |>.set .title title
    |>.set .publisher publisher
    |>.set .year year
    |>.set .volume volume
    |>.set .number number
    |>.set .series series
    |>.set .address address
    |>.set .edition edition
    |>.set .month month
    |>.set .note note'
    |>.set .key key'

/-- `LiteratureBooklet`: literature.hpp 492-511 -/
def booklet (bibKey title author howpublished address month year note' key' : String) : Reference :=
  ((Reference.new bibKey).setPublicationType .booklet)
    |>.set .title title
    |>.set .author author
    |>.set .howpublished howpublished
    |>.set .address address
    |>.set .month month
    |>.set .year year
    |>.set .note note'
    |>.set .key key'

/-- `LiteratureInBook`: literature.hpp 514-543 -/
def inBook (bibKey author editor title chapter pages publisher year volume number series type' address edition month note' key' : String)
    : Reference :=
  ((Reference.new bibKey).setPublicationType .inbook)
    |>.set .author author
    |>.set .editor editor
    |>.set .title title
    |>.set .chapter chapter
    |>.set .pages pages
    |>.set .publisher publisher
    |>.set .year year
    |>.set .volume volume
    |>.set .number number
    |>.set .series series
    |>.set .type type'
    |>.set .address address
    |>.set .edition edition
    |>.set .month month
    |>.set .note note'
    |>.set .key key'

/-- `LiteratureInCollection`: literature.hpp 545-575 -/
def inCollection (bibKey author title booktitle publisher year editor volume number series type' chapter pages address edition month note'
    key' : String) : Reference :=
  ((Reference.new bibKey).setPublicationType .incollection)
    |>.set .author author
    |>.set .title title
    |>.set .booktitle booktitle
    |>.set .publisher publisher
    |>.set .year year
    |>.set .editor editor
    |>.set .volume volume
    |>.set .number number
    |>.set .series series
    |>.set .type type'
    |>.set .chapter chapter
    |>.set .pages pages
    |>.set .address address
    |>.set .edition edition
    |>.set .month month
    |>.set .note note'
    |>.set .key key'

/-- `LiteratureInProceedings`: literature.hpp 578-605 -/
def inProceedings (bibKey author title booktitle year editor volume number series pages address month organization publisher note' key' :
    String) : Reference :=
  ((Reference.new bibKey).setPublicationType .inproceedings)
    |>.set .author author
    |>.set .title title
    |>.set .booktitle booktitle
    |>.set .year year
    |>.set .editor editor
    |>.set .volume volume
    |>.set .number number
    |>.set .series series
    |>.set .pages pages
    |>.set .address address
    |>.set .month month
    |>.set .edition organization
    |>.set .publisher publisher
    |>.set .note note'
    |>.set .key key'

/-- `LiteratureManual`: literature.hpp 608-628 -/
def manual (bibKey title author organization address edition year publisher note' key' : String) : Reference :=
  ((Reference.new bibKey).setPublicationType .manual)
    |>.set .title title
    |>.set .author author
    |>.set .edition organization
    |>.set .address address
    |>.set .edition edition
    |>.set .year year
    |>.set .publisher publisher
    |>.set .note note'
    |>.set .key key'

/-- `LiteratureMastersThesis`: literature.hpp 630-650 -/
def mastersThesis (bibKey author title school year type' address month note' key' : String) : Reference :=
  ((Reference.new bibKey).setPublicationType .mastersthesis)
    |>.set .author author
    |>.set .title title
    |>.set .edition school
    |>.set .year year
    |>.set .type type'
    |>.set .address address
    |>.set .month month
    |>.set .note note'
    |>.set .key key'

/-- `LiteratureMisc`: literature.hpp 654-671 -/
def misc (bibKey author title howpublished month year note' key' : String) : Reference :=
  ((Reference.new bibKey).setPublicationType .misc)
    |>.set .author author
    |>.set .title title
    |>.set .howpublished howpublished
    |>.set .month month
    |>.set .year year
    |>.set .note note'
    |>.set .key key'

/-- `LiteraturePhdThesis`: literature.hpp 674-694 -/
def phdThesis (bibKey author title school year type' address month note' key' : String) : Reference :=
  ((Reference.new bibKey).setPublicationType .phdthesis)
    |>.set .author author
    |>.set .title title
    |>.set .edition school
    |>.set .year year
    |>.set .type type'
    |>.set .address address
    |>.set .month month
    |>.set .note note'
    |>.set .key key'

/-- `LiteratureProceedings`: literature.hpp 697-721 -/
def proceedings (bibKey title year editor volume number series address month organization publisher note' key' : String) : Reference :=
  ((Reference.new bibKey).setPublicationType .proceedings)
    |>.set .title title
    |>.set .year year
    |>.set .editor editor
    |>.set .volume volume
    |>.set .number number
    |>.set .series series
    |>.set .address address
    |>.set .month month
    |>.set .edition organization
    |>.set .publisher publisher
    |>.set .note note'
    |>.set .key key'

/-- `LiteratureTechReport`: literature.hpp 723-744 -/
def techReport (bibKey author title institution year type' number address month note' key' : String) : Reference :=
  ((Reference.new bibKey).setPublicationType .techreport)
    |>.set .author author
    |>.set .title title
    |>.set .institution institution
    |>.set .year year
    |>.set .type type'
    |>.set .number number
    |>.set .address address
    |>.set .month month
    |>.set .note note'
    |>.set .key key'

/-- `LiteratureUnpublished`: literature.hpp 746-762 -/
def unpublished (bibKey author title note' year month key' : String) : Reference :=
  ((Reference.new bibKey).setPublicationType .unpublished)
    |>.set .author author
    |>.set .title title
    |>.set .note note'
    |>.set .year year
    |>.set .month month
    |>.set .key key'

/-- the call of a constructor where the argument for the parameter called `f` is `args f`; an argument that is left out is the empty
string: parameter lists at the lines given above -/
def construct (key : String) (args : Field → String) : PublicationType → Reference
  | .article => article key (args .author) (args .title) (args .journal) (args .year) (args .volume) (args .pages) (args .number) (args
      .month) (args .note) (args .key)
  | .book => book key (args .author) (args .editor) (args .title) (args .publisher) (args .year) (args .volume) (args .number) (args
      .series) (args .address) (args .edition) (args .month) (args .note) (args .key)
  | .booklet => booklet key (args .title) (args .author) (args .howpublished) (args .address) (args .month) (args .year) (args .note)
      (args .key)
  | .inbook => inBook key (args .author) (args .editor) (args .title) (args .chapter) (args .pages) (args .publisher) (args .year) (args
      .volume) (args .number) (args .series) (args .type) (args .address) (args .edition) (args .month) (args .note) (args .key)
  | .incollection => inCollection key (args .author) (args .title) (args .booktitle) (args .publisher) (args .year) (args .editor) (args
      .volume) (args .number) (args .series) (args .type) (args .chapter) (args .pages) (args .address) (args .edition) (args .month)
      (args .note) (args .key)
  | .inproceedings => inProceedings key (args .author) (args .title) (args .booktitle) (args .year) (args .editor) (args .volume) (args
      .number) (args .series) (args .pages) (args .address) (args .month) (args .organization) (args .publisher) (args .note) (args .key)
  | .manual => manual key (args .title) (args .author) (args .organization) (args .address) (args .edition) (args .year) (args .publisher)
      (args .note) (args .key)
  | .mastersthesis => mastersThesis key (args .author) (args .title) (args .school) (args .year) (args .type) (args .address) (args
      .month) (args .note) (args .key)
  | .misc => misc key (args .author) (args .title) (args .howpublished) (args .month) (args .year) (args .note) (args .key)
  | .phdthesis => phdThesis key (args .author) (args .title) (args .school) (args .year) (args .type) (args .address) (args .month) (args
      .note) (args .key)
  | .proceedings => proceedings key (args .title) (args .year) (args .editor) (args .volume) (args .number) (args .series) (args .address)
      (args .month) (args .organization) (args .publisher) (args .note) (args .key)
  | .techreport => techReport key (args .author) (args .title) (args .institution) (args .year) (args .type) (args .number) (args
      .address) (args .month) (args .note) (args .key)
  | .unpublished => unpublished key (args .author) (args .title) (args .note) (args .year) (args .month) (args .key)

/-! ## entries of a BibTeX file -/

/-- `getPublicationTypeString`: literature.cpp 32-77 -/
def PublicationType.string : PublicationType → String
  | .article => "article"
  | .book => "book"
  | .booklet => "booklet"
  | .inbook => "inbook"
  | .incollection => "incollection"
  | .inproceedings => "inproceedings"
  | .manual => "manual"
  | .mastersthesis => "mastersthesis"
  | .misc => "misc"
  | .phdthesis => "phdthesis"
  | .proceedings => "proceedings"
  | .techreport => "techreport"
  | .unpublished => "unpublished"

/-- the names `operator<<` writes: literature.cpp 179-217 -/
def Field.name : Field → String
  | .address => "address"
  | .annote => "annote"
  | .author => "author"
  | .booktitle => "booktitle"
  | .chapter => "chapter"
  | .crossref => "crossref"
  | .edition => "edition"
  | .editor => "editor"
  | .eprint => "eprint"
  | .howpublished => "howpublished"
  | .institution => "institution"
  | .journal => "journal"
  | .key => "key"
  | .month => "month"
  | .note => "note"
  | .number => "number"
  | .organization => "organization"
  | .pages => "pages"
  | .publisher => "publisher"
  | .school => "school"
  | .series => "series"
  | .title => "title"
  | .type => "type"
  | .url => "url"
  | .doi => "doi"
  | .volume => "volume"
  | .year => "year"

/-- the order in which `operator<<` goes through the members: literature.cpp 179-217 -/
def fieldOrder : List Field :=
  [.author, .title, .journal, .booktitle, .edition, .volume, .chapter, .number, .month, .year, .pages, .editor, .series,
   .institution, .organization, .school, .publisher, .address, .annote, .crossref, .eprint, .howpublished, .key, .note, .type,
   .url, .doi]

/-- the lines `if (ref.getX() != "") out << ",\n  x={" << ref.getX() << "}"`: literature.cpp 179-217 -/
def writeField (r : Reference) (f : Field) : List Char :=
  if r.get f = "" then [] else ",\n  ".toList ++ f.name.toList ++ "={".toList ++ (r.get f).toList ++ "}".toList

/-- `schnek::operator<<`: literature.cpp 175-222. `none`: reads the type of the publication without initialisation, undefined. -/
def write (r : Reference) : Option (List Char) :=
  r.publType.map fun t =>
    "@".toList ++ t.string.toList ++ "{".toList ++ r.bibKey.toList ++ fieldOrder.flatMap (writeField r) ++ "\n}\n\n".toList

/-! ## the manager -/

/-- `std::set<std::string>::insert` -/
def insertString (s : String) : List String → List String
  | [] => [s]
  | a :: l => if s < a then s :: a :: l else if s = a then a :: l else a :: insertString s l

/-- an element of `Records`: literature.hpp 768-770 -/
structure Record where
  key : String
  descriptions : List String
  reference : Reference

/-- `std::map<std::string, LitRecord>::insert`, the key does not exist yet -/
def insertRecord (r : Record) : List Record → List Record
  | [] => [r]
  | a :: l => if r.key < a.key then r :: a :: l else a :: insertRecord r l

/-- `LiteratureManager`: literature.hpp 764-773 -/
structure Manager where
  records : List Record
  title : String
  subtitle : String

/-- `addReference`: literature.cpp 134-149 -/
def Manager.addReference (m : Manager) (description : String) (reference : Reference) : Manager :=
  if m.records.any (·.key = reference.bibKey) then
    { m with records := m.records.map fun r =>
        if r.key = reference.bibKey then { r with descriptions := insertString description r.descriptions } else r }
  else
    { m with records := insertRecord ⟨reference.bibKey, insertString description [], reference⟩ m.records }

/-- the reference every program cites: literature.cpp 123-131 -/
def schnekReference : Reference :=
  (article "Schmitz2018" "Schmitz, Holger" "Schnek: A {C}++ library for the development of parallel simulation codes on regular grids"
    "Computer Physics Communications" "2018" "226" "151--164" "" "" "" "").set .url "https://doi.org/10.1016/j.cpc.2017.12.023"

/-- `LiteratureManager()`: literature.cpp 119-132 -/
def Manager.new : Manager :=
  Manager.addReference ⟨[], "Algorithms and Methods", "The following algorithms and methods have been used during this simulation run."⟩
    "Parallel simulation framework based on the Schnek Library" schnekReference

/-- one record in `writeInformation`: literature.cpp 156-162 -/
def writeItem (r : Record) : List Char :=
  "\\item ".toList ++ r.descriptions.flatMap (fun d => d.toList ++ "\n".toList) ++ "\\cite{".toList ++ r.key.toList ++ "}\n".toList

/-- `writeInformation`: literature.cpp 151-165 -/
def Manager.writeInformation (m : Manager) (bibfile : String) : List Char :=
  "\\documentclass{article}\n".toList ++ "\\begin{document}\n".toList ++ "\\section*{".toList ++ m.title.toList ++ "}\n".toList ++
  m.subtitle.toList ++ "\n\\begin{itemize}".toList ++ m.records.flatMap writeItem ++
  "\\end{itemize}\n".toList ++ "\\bibliographystyle{acm}\n".toList ++ "\\bibliography{".toList ++ bibfile.toList ++ "}\n".toList ++
  "\\end{document}\n".toList

/-- the loop of `writeBibTex`: literature.cpp 167-173 -/
def writeRecords : List Record → Option (List Char)
  | [] => some []
  | r :: l => do return (← write r.reference) ++ "\n".toList ++ (← writeRecords l)

/-- `writeBibTex`: literature.cpp 167-173 -/
def Manager.writeBibTex (m : Manager) : Option (List Char) := writeRecords m.records

/-- the calls of `addReference` of a run -/
def Manager.run (calls : List (String × Reference)) : Manager := calls.foldl (fun m c => m.addReference c.1 c.2) .new

end Schnek.Literature
