import Verif.Model.MilpRoutes
import Verif.Spec.Milp
import Verif.Spec.RouteState

/-!
# Specification: the routes a solution of the linear model stands for

`ts` are the trips of the job: trip `ts[t]` is picked up at node `t + 1` and delivered at node `n + (t + 1)`.
-/

set_option autoImplicit false

namespace Jinete

/-- Where vehicle `veh` is when it is at a node. -/
def nodePlace (E : Env) (ts : List Nat) (veh i : Nat) : Pos :=
  if i = 0 then (E.vehicle veh).origin.position
  else if i ≤ ts.length then (E.trip (ts.getD (i - 1) 0)).origin.position
  else if i ≤ 2 * ts.length then (E.trip (ts.getD (i - ts.length - 1) 0)).destination.position
  else (E.vehicle veh).destination.position

/-- What vehicle `veh`, the `k`-th of the fleet, does at a node: it is there at the time of the solution, picks up the
trip if the node is its pickup, and drops it if the node is its delivery. -/
def nodeVisit (E : Env) (ts : List Nat) (a : Assignment) (k veh i : Nat) : Visit where
  pos := nodePlace E ts veh i
  request := some (a.u k i)
  picks := if 1 ≤ i ∧ i ≤ ts.length then [ts.getD (i - 1) 0] else []
  drops := if ts.length < i ∧ i ≤ 2 * ts.length then [ts.getD (i - ts.length - 1) 0] else []

/-- The end of the tour of vehicle `veh`. -/
def homeVisit (E : Env) (veh : Nat) : Visit where
  pos := (E.vehicle veh).destination.position
  request := none
  picks := []
  drops := []

/-- Route `r` follows the path of vehicle `veh`, the `k`-th of the fleet, in the solution: the nodes on the path are all
those that the vehicle leaves, and the route visits them in the order of the path. -/
structure Follows (E : Env) (vs ts : List Nat) (a : Assignment) (k veh : Nat) (c : Core) (r : Nat) (ns : List Nat) : Prop where
  vehicle : (c.route r).vehicle = veh
  path : (milpOf E vs ts).DepotPath a k (0 :: (ns ++ [2 * ts.length + 1]))
  nodes : ∀ i, 1 ≤ i → i ≤ 2 * ts.length → (i ∈ ns ↔ ∃ j, (milpOf E vs ts).Uses a k i j)
  itin : itinerary c r = (0 :: ns).map (nodeVisit E ts a k veh) ++ [homeVisit E veh]

/-- All places of the job are different: the depot `o` and the origins and destinations of the trips. -/
def DistinctPlaces (E : Env) (o : Pos) (ts : List Nat) : Prop :=
  (o :: (ts.map (fun t => (E.trip t).origin.position) ++ ts.map fun t => (E.trip t).destination.position)).Nodup

/-- Jobs whose solutions can be read back: all vehicles start at one depot `o`, which is the place of no trip, no two
trips share a place, boarding takes time and all destinations close at some time. -/
structure Readable (E : Env) (vs ts : List Nat) (o : Pos) : Prop where
  vehicles : vs ≠ []
  places : DistinctPlaces E o ts
  origin : ∀ v ∈ vs, (E.vehicle v).origin.position = o
  far : ∀ v ∈ vs, E.metric (E.vehicle v).destination.position o = 0 → (E.vehicle v).destination.position = o
  closes : ∀ t ∈ ts, ∃ q, (E.trip t).destination.latest = .fin q
  metric : ∀ p q, 0 ≤ E.metric p q
  loading : ∀ t ∈ ts, 0 < (E.trip t).origin.duration

/-- Jobs for which the linear model asks for everything the routing constraints ask for: moreover all vehicles end at one
depot `d`, leaving the vehicle takes no longer than boarding it, and the vehicles are available when the solution uses
them. -/
structure Modelled (E : Env) (vs ts : List Nat) (a : Assignment) (o d : Pos) : Prop extends Readable E vs ts o where
  destination : ∀ v ∈ vs, (E.vehicle v).destination.position = d
  here : ∀ p, E.metric p p = 0
  unloading : ∀ t ∈ ts, 0 ≤ (E.trip t).destination.duration ∧ (E.trip t).destination.duration ≤ (E.trip t).origin.duration
  depots : ∀ k (hk : k < vs.length), (E.vehicle vs[k]).origin.earliest ≤ a.u k 0 ∧
    Bound.leQ (a.u k (2 * ts.length + 1)) (E.vehicle vs[k]).destination.latest = true

end Jinete
