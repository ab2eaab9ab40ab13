import Verif.Spec.AssignedSettings
import Verif.Spec.BlockNesting
import Verif.Model.Deck

/-!
# A setup file made by a program: settings, values for parameters, and blocks of these and further blocks
-/

namespace Schnek.Spec.SettingsText

open Schnek.Scanner Schnek.Spec.Lexer Schnek.Diagnostic Schnek.Deck Schnek.NumberText

/-- what a program wants to store: settings, values for the parameters of the program that reads the file, and blocks, in any order and nested as deeply as one likes -/
inductive Items
  | nil
  | setting (name : String) (value : Val ℚ) (rest : Items)
  | param (name : String) (value : Val ℚ) (rest : Items)
  | block (className name : String) (body rest : Items)

namespace Items

/-- One line for each setting and each parameter; a block is `class name {`, what it contains, and `}`, each on its own line. -/
def text : Items → List Byte
  | nil => []
  | setting n v rest => typedText (n, v) ++ rest.text
  | param n v rest => assignedText (n, v) ++ rest.text
  | block c n body rest => bytes c ++ bytes " " ++ bytes n ++ bytes " {\n" ++ body.text ++ bytes "}\n" ++ rest.text

/-- the names of the settings that lie directly here -/
def settings : Items → List String
  | nil => []
  | setting n _ rest => n :: rest.settings
  | param _ _ rest => rest.settings
  | block _ _ _ rest => rest.settings

/-- the names of the blocks that lie directly here -/
def blocks : Items → List String
  | nil => []
  | setting _ _ rest => rest.blocks
  | param _ _ rest => rest.blocks
  | block _ n _ rest => n :: rest.blocks

/-- the names of the parameters that get a value directly here -/
def params : Items → List String
  | nil => []
  | setting _ _ rest => rest.params
  | param n _ rest => n :: rest.params
  | block _ _ _ rest => rest.params

/-- The items can lie in a block of class `parent` of a program with these classes: names are names, values can be written, no two settings, no two
values for parameters and no two blocks in one place have the same name, a setting is not called like a parameter of the class of the block, values
are given to parameters of the class that have a type the value can be converted to, and if blocks are restricted, they lie where the program
allows it. -/
def Fit (ofInt : ℤ → ℚ) (classes : List (String × ClassDesc ℚ)) (restr : Bool) : String → Items → Prop
  | _, nil => True
  | parent, setting n v rest => IsName n ∧ CanBeStored v ∧ n ∉ rest.settings ∧ Fit ofInt classes restr parent rest
  | parent, param n v rest => IsName n ∧ CanBeStored v ∧ n ∉ rest.params ∧
      (∃ d specs q, classes.lookup parent = some d ∧ d.factory = some specs ∧ q ∈ specs ∧ q.name = n ∧ q.readOnly = false ∧ q.constant = false ∧
        ∃ val, Gives ofInt q.current.ty v val) ∧ Fit ofInt classes restr parent rest
  | parent, block c n body rest =>
    IsName c ∧ IsName n ∧ n ∉ rest.blocks ∧ (restr = true → Allows classes parent c) ∧
      (∀ d specs, classes.lookup c = some d → d.factory = some specs → ∀ q ∈ specs, q.name ∉ body.settings) ∧
      Fit ofInt classes restr c body ∧ Fit ofInt classes restr parent rest

/-- The parameters `q` of a class that a block has to give a value to, because they have no default, get one directly here. -/
def Covers (classes : List (String × ClassDesc ℚ)) (c : String) (it : Items) : Prop :=
  ∀ d specs, classes.lookup c = some d → d.factory = some specs → ∀ q ∈ specs, q.readOnly = false → q.constant = false → q.default = none →
    q.name ∈ it.params

/-- All blocks give a value to the parameters of their class that have no default. -/
def Complete (classes : List (String × ClassDesc ℚ)) : Items → Prop
  | nil => True
  | setting _ _ rest => Complete classes rest
  | param _ _ rest => Complete classes rest
  | block c _ body rest => body.Covers classes c ∧ Complete classes body ∧ Complete classes rest

/-- The block `b` of class `c` has nothing else: its variables are those settings and the parameters of its class, its blocks are those blocks. -/
def Only {W : Type} (classes : List (String × ClassDesc ℚ)) (D : DeckState ℚ W) (b : ℕ) (c : String) (it : Items) : Prop :=
  (∀ m v, Declares D.store b m v → m ∈ it.settings ∨ ∃ d specs, classes.lookup c = some d ∧ d.factory = some specs ∧ ∃ q ∈ specs, q.name = m) ∧
    ∀ m b', ChildNamed D.store b m b' → m ∈ it.blocks

/-- The block `b` has what the items say: for each setting a variable of its type with its value, for each parameter the value, converted, for each block a block of its class and name,
which again has what it contains, and nothing else. -/
def Holds {W : Type} (ofInt : ℤ → ℚ) (classes : List (String × ClassDesc ℚ)) (D : DeckState ℚ W) : ℕ → Items → Prop
  | _, nil => True
  | b, setting n v rest => (∃ i x, Declares D.store b n i ∧ D.heap[i]? = some x ∧ x.ty = v.ty ∧ x.value = v) ∧ Holds ofInt classes D b rest
  | b, param n v rest => (∃ i x, Declares D.store b n i ∧ D.heap[i]? = some x ∧ x.initialised = true ∧ Gives ofInt x.ty v x.value) ∧
      Holds ofInt classes D b rest
  | b, block c n body rest => (∃ b', ChildNamed D.store b n b' ∧ OfClass D.store b' c ∧ Holds ofInt classes D b' body ∧ body.Only classes D b' c) ∧ Holds ofInt classes D b rest

end Items

example : (Items.setting "nx" (.int 100) (.block "Field" "E" (.param "dx" (.float (1 / 4)) (.block "Init" "left" .nil .nil))
      (.setting "file" (.str "a.h5") .nil))).text =
    bytes "int nx = 100;\nField E {\ndx = 0.25;\nInit left {\n}\n}\nstring file = \"a.h5\";\n" := by
  decide +kernel

end Schnek.Spec.SettingsText
