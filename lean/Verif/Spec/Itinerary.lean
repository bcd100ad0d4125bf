import Verif.Model.Trip

/-!
# Specification: itineraries

An itinerary is what a route means to its user: the vehicle and, in order, the positions visited, the
requested start times and the trips picked up and dropped there. No pointers, no caches. Times, loads
and the routing constraints are plain functions of the itinerary.
-/

set_option autoImplicit false

namespace Jinete

/-- One visit of an itinerary. -/
structure Visit where
  pos : Pos
  /-- start time asked for by the planner, if any -/
  request : Option ℚ
  /-- trips picked up here -/
  picks : List Nat
  /-- trips dropped here -/
  drops : List Nat
  deriving DecidableEq

variable (E : Env)

/-- Opening time of a visit: the largest effective earliest time of the trips served, 0 if none. -/
def Visit.earliest (v : Visit) : ℚ :=
  maxD 0 ((v.picks.map fun t => (E.trip t).originEarliest) ++
    (v.drops.map fun t => (E.trip t).destinationEarliest E.metric))

/-- Service time of a visit: the longest of the trips served, 0 if none. -/
def Visit.loadTime (v : Visit) : ℚ :=
  maxD 0 ((v.picks.map fun t => (E.trip t).origin.duration) ++
    (v.drops.map fun t => (E.trip t).destination.duration))

/-- Arrival, start of service and departure. -/
structure Tm where
  arr : ℚ
  start : ℚ
  dep : ℚ
  deriving DecidableEq

/-- Leaving position `p` at time `t`, drive to the visit, wait for the requested start and the opening
time, serve. -/
def serve (t : ℚ) (p : Pos) (v : Visit) : Tm :=
  let a := t + E.metric p v.pos
  let s := max (max (v.request.getD a) (v.earliest E)) a
  ⟨a, s, s + v.loadTime E⟩

/-- The forward schedule of a list of visits, leaving `p` at `t`. -/
def timetable (t : ℚ) (p : Pos) : List Visit → List Tm
  | [] => []
  | v :: l => serve E t p v :: timetable (serve E t p v).dep v.pos l

/-- The number (capacity) of passengers of a list of trips. -/
def tripsCapacity (l : List Nat) : ℚ := (l.map fun t => (E.trip t).capacity).sum

/-- The load on board after each visit, starting with load `q`. -/
def loads (q : ℚ) : List Visit → List ℚ
  | [] => []
  | v :: l =>
    let q' := q + tripsCapacity E v.picks - tripsCapacity E v.drops
    q' :: loads q' l

/-- The schedule of a vehicle that leaves its depot at its origin's earliest time. -/
def vehicleTimetable (veh : Vehicle) (l : List Visit) : List Tm :=
  timetable E veh.origin.earliest veh.origin.position l

/-- A trip picked up at visit `v` (times `x`, load `q`) and dropped at visit `w` (times `y`, load `q'`) is
served correctly: both services start inside the effective windows, the vehicle is never over capacity
there, and the ride is not longer than allowed; everything up to `ERROR_BOUND`. -/
structure TripOK (veh : Vehicle) (t : Nat) (x y : Tm) (q q' : ℚ) : Prop where
  pickEarliest : (E.trip t).originEarliest ≤ x.start + errorBound
  pickLatest : (((E.trip t).originLatest E.metric).addQ errorBound).leQ x.start = true
  dropEarliest : (E.trip t).destinationEarliest E.metric ≤ y.start + errorBound
  dropLatest : (((E.trip t).destinationLatest).addQ errorBound).leQ y.start = true
  pickLoad : q ≤ veh.capacity + errorBound
  dropLoad : q' ≤ veh.capacity + errorBound
  ride : ((E.trip t).timeout.addQ errorBound).leQ (y.start - x.dep) = true

/-- The vehicle-level routing constraints of an itinerary. -/
structure VehicleOK (veh : Vehicle) (l : List Visit) : Prop where
  startPos : l.head?.map Visit.pos = some veh.origin.position
  startTime : ∀ x ∈ (vehicleTimetable E veh l).head?, veh.origin.earliest - errorBound ≤ x.arr
  endPos : l.getLast?.map Visit.pos = some veh.destination.position
  endTime : ∀ y ∈ (vehicleTimetable E veh l).getLast?, (veh.destination.latest.addQ errorBound).leQ y.dep = true
  duration : ∀ x ∈ (vehicleTimetable E veh l).head?, ∀ y ∈ (vehicleTimetable E veh l).getLast?,
    (veh.timeout.addQ errorBound).leQ (y.dep - x.dep) = true

/-- The routing constraints of an itinerary. -/
structure FeasibleItinerary (veh : Vehicle) (l : List Visit) : Prop where
  vehicle : VehicleOK E veh l
  trips : ∀ (i j : Nat) (v w : Visit) (x y : Tm) (q q' : ℚ) (t : Nat),
    l[i]? = some v → l[j]? = some w →
    (vehicleTimetable E veh l)[i]? = some x → (vehicleTimetable E veh l)[j]? = some y →
    (loads E 0 l)[i]? = some q → (loads E 0 l)[j]? = some q' →
    t ∈ v.picks → t ∈ w.drops → TripOK E veh t x y q q'

end Jinete
