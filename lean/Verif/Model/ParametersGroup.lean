import Verif.Model.Deck

/-!
# Model of `schnek::ParametersGroup`

`src/variables/blockparameters.hpp`, `src/variables/blockparameters.cpp`
-/

namespace Schnek.Deck

/-- `std::set<long>`. The address tells different sets apart; the elements are in increasing order. -/
structure IdSet where
  address : ℕ
  elements : List ℤ

namespace IdSet

/-- `insert` -/
def insert (s : IdSet) (id : ℤ) : IdSet :=
  if id ∈ s.elements then s else { s with elements := s.elements.takeWhile (· < id) ++ id :: s.elements.dropWhile (· < id) }

/-- an iterator: the address of the set it belongs to, and the position in it -/
abbrev Iter := ℕ × ℕ

/-- `begin()` -/
def begin (s : IdSet) : Iter := (s.address, 0)

/-- `end()` -/
def «end» (s : IdSet) : Iter := (s.address, s.elements.length)

/-- `erase(first, last)`; `none`: undefined, because the iterators are not iterators of this set -/
def erase (s : IdSet) (first last : Iter) : Option IdSet :=
  if first.1 = s.address ∧ last.1 = s.address then
    some { s with elements := s.elements.take first.2 ++ s.elements.drop last.2 }
  else none

end IdSet

namespace DeckState

variable {F W : Type}

/-- `getId()` of a variable -/
def idOf (D : DeckState F W) (v : Var) : ℤ := D.state.id v

/-- `ParametersGroup::add` and `addArray`: blockparameters.cpp 32-40, blockparameters.hpp 58-62; the parameters are represented by their
variables -/
def addToGroup (D : DeckState F W) (group : IdSet) (vs : List Var) : IdSet := vs.foldl (fun g v => g.insert (D.idOf v)) group

/-- `ParametersGroup::isElement`: blockparameters.cpp 42-50 -/
def isElement (D : DeckState F W) (group : IdSet) (v : Var) : Bool := group.elements.contains (D.idOf v)

end DeckState

/-- `ParametersGroup::hasElements`: blockparameters.cpp 52-56; the result and the changed set -/
def hasElements (group ids : IdSet) : Option (Bool × IdSet) :=
  (ids.erase group.begin group.end).map fun s => (s.elements.isEmpty, s)

end Schnek.Deck
