import Verif.Spec.Itinerary

/-!
# The same visits, their sets in any order

The planned trips of a stop are Python sets of objects that are hashed by address: the order in which they are iterated changes from
run to run.
-/

set_option autoImplicit false

namespace Jinete

/-- Two visits that differ at most in the order of the trips picked up and of the trips dropped. -/
structure EqualVisit (v w : Visit) : Prop where
  pos : v.pos = w.pos
  request : v.request = w.request
  picks : v.picks.Perm w.picks
  drops : v.drops.Perm w.drops

/-- Two itineraries that differ at most in the orders at each visit. -/
def EqualTours (l m : List Visit) : Prop := List.Forall₂ EqualVisit l m

end Jinete
