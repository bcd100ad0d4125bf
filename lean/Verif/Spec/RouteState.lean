import Verif.Model.Heap
import Verif.Spec.Itinerary

/-!
# Specification: what a route in the heap stands for, and when it is well formed
-/

set_option autoImplicit false

namespace Jinete

/-- The visit made at a stop. -/
def visitOf (c : Core) (s : Nat) : Visit where
  pos := (c.stop s).position
  request := (c.stop s).start
  picks := (c.stop s).pickups.map fun p => (c.pt p).trip
  drops := (c.stop s).deliveries.map fun p => (c.pt p).trip

/-- The itinerary a route stands for (abstraction function). -/
def itinerary (c : Core) (r : Nat) : List Visit := (c.route r).stops.map (visitOf c)

/-- Every stop of `l` points back to the stop before it in `l`; the first one points nowhere. -/
def Linked (c : Core) (l : List Nat) : Prop :=
  ∀ pre s suf, l = pre ++ s :: suf → (c.stop s).previous = pre.getLast?

/-- The stops of a route are distinct existing objects of the route's vehicle, linked first to last. -/
structure Chained (c : Core) (r : Nat) : Prop where
  nodup : (c.route r).stops.Nodup
  alloc : ∀ s ∈ (c.route r).stops, s < c.nStop
  linked : Linked c (c.route r).stops
  vehicle : ∀ s ∈ (c.route r).stops, (c.stop s).vehicle = (c.route r).vehicle

/-- The forward schedule of a route (of its itinerary and vehicle). -/
def routeTimetable (E : Env) (c : Core) (r : Nat) : List Tm :=
  vehicleTimetable E (E.vehicle (c.route r).vehicle) (itinerary c r)

/-- The loads along a route. -/
def routeLoads (E : Env) (c : Core) (r : Nat) : List ℚ := loads E 0 (itinerary c r)

/-- Whatever arrival time, departure time or load is memoised at a stop of the route agrees with the
schedule of the route. -/
def CachesAgree (E : Env) (h : Heap) (r : Nat) : Prop :=
  ∀ (k s : Nat) (x : Tm) (q : ℚ), (h.core.route r).stops[k]? = some s →
    (routeTimetable E h.core r)[k]? = some x → (routeLoads E h.core r)[k]? = some q →
    (∀ v, h.arr s = some v → v = x.arr) ∧ (∀ v, h.dep s = some v → v = x.dep) ∧
    (∀ v, h.cap s = some v → v = q)

/-- Sign conditions on the problem data: travel times, loading times and capacities are not negative. -/
structure EnvOK (E : Env) : Prop where
  metric : ∀ a b, 0 ≤ E.metric a b
  originDuration : ∀ t, 0 ≤ (E.trip t).origin.duration
  destinationDuration : ∀ t, 0 ≤ (E.trip t).destination.duration
  capacity : ∀ t, 0 ≤ (E.trip t).capacity

/-- A well formed route: chained stops, at least the two depot stops, the first of which serves no trip;
each planned trip picked up at a stop is dropped at a later stop of the route, and conversely; planned
trips know their stops; no trip is planned twice. -/
structure WellFormed (c : Core) (r : Nat) : Prop extends Chained c r where
  exists_ : r < c.nRoute
  length : 2 ≤ (c.route r).stops.length
  depot : ∀ s ∈ (c.route r).stops.head?, (c.stop s).pickups = [] ∧ (c.stop s).deliveries = []
  pick : ∀ pre s suf, (c.route r).stops = pre ++ s :: suf → ∀ p ∈ (c.stop s).pickups,
    p < c.nPt ∧ (c.pt p).pickup = some s ∧ ∃ d ∈ suf, (c.pt p).delivery = some d ∧ p ∈ (c.stop d).deliveries
  drop : ∀ pre s suf, (c.route r).stops = pre ++ s :: suf → ∀ p ∈ (c.stop s).deliveries,
    p < c.nPt ∧ (c.pt p).delivery = some s ∧ ∃ u ∈ pre, (c.pt p).pickup = some u ∧ p ∈ (c.stop u).pickups
  sets : ∀ s ∈ (c.route r).stops, (c.stop s).pickups.Nodup ∧ (c.stop s).deliveries.Nodup
  trips : ((itinerary c r).flatMap Visit.picks).Nodup

end Jinete
