import Verif.Model.Strategy
import Verif.Spec.Duties

/-!
# Specification: states reached by building routes with the insertion strategies
-/

set_option autoImplicit false

namespace Jinete

/-- States of a program that creates empty routes, computes insertion candidates of existing routes and asks
routes whether they are feasible, in any order and number. -/
inductive Reach (E : Env) : Heap → Prop
  | empty : Reach E Heap.empty
  | newRoute {h h' : Heap} {v r : Nat} : Reach E h → newRoute E v h = (.ok r, h') → Reach E h'
  | compute {h h' : Heap} {f : Bool} {r i j : Nat} {ts rs : List Nat} : Reach E h → r < h.core.nRoute → i < j →
      j < (h.core.route r).stops.length → (∀ t ∈ ts, t ∉ tripsOf h.core r) →
      compute E f r ts i j h = (.ok rs, h') → Reach E h'
  | feasible {h h' : Heap} {r : Nat} {b : Bool} : Reach E h → r < h.core.nRoute →
      routeFeasible E r h = (.ok b, h') → Reach E h'

/-- The trip constraints of `TripOK` without the closing times. -/
structure TripServed (E : Env) (veh : Vehicle) (t : Nat) (x y : Tm) (q q' : ℚ) : Prop where
  pickEarliest : (E.trip t).originEarliest ≤ x.start + errorBound
  dropEarliest : (E.trip t).destinationEarliest E.metric ≤ y.start + errorBound
  pickLoad : q ≤ veh.capacity + errorBound
  dropLoad : q' ≤ veh.capacity + errorBound
  ride : ((E.trip t).timeout.addQ errorBound).leQ (y.start - x.dep) = true

/-- The same visits without requested starts: served as soon as possible. -/
def asSoonAsPossible (l : List Visit) : List Visit := l.map fun v => { v with request := none }

/-- The constraints of `FeasibleItinerary` without the maximum duration of the route and with the closing times of trips
only for the schedule that serves the same visits as soon as possible. -/
structure LooselyFeasible (E : Env) (veh : Vehicle) (l : List Visit) : Prop where
  startPos : l.head?.map Visit.pos = some veh.origin.position
  startTime : ∀ x ∈ (vehicleTimetable E veh l).head?, veh.origin.earliest - errorBound ≤ x.arr
  endPos : l.getLast?.map Visit.pos = some veh.destination.position
  endTime : ∀ y ∈ (vehicleTimetable E veh l).getLast?, (veh.destination.latest.addQ errorBound).leQ y.dep = true
  trips : ∀ (i j : Nat) (v w : Visit) (x y : Tm) (q q' : ℚ) (t : Nat),
    l[i]? = some v → l[j]? = some w →
    (vehicleTimetable E veh l)[i]? = some x → (vehicleTimetable E veh l)[j]? = some y →
    (loads E 0 l)[i]? = some q → (loads E 0 l)[j]? = some q' →
    t ∈ v.picks → t ∈ w.drops → TripServed E veh t x y q q'
  closing : ∀ (i j : Nat) (v w : Visit) (x y : Tm) (t : Nat),
    l[i]? = some v → l[j]? = some w →
    (vehicleTimetable E veh (asSoonAsPossible l))[i]? = some x → (vehicleTimetable E veh (asSoonAsPossible l))[j]? = some y →
    t ∈ v.picks → t ∈ w.drops →
    (((E.trip t).originLatest E.metric).addQ errorBound).leQ x.start = true ∧
    (((E.trip t).destinationLatest).addQ errorBound).leQ y.start = true

end Jinete
