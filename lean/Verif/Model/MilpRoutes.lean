import Verif.Model.Milp
import Verif.Model.Objective

/-!
# Routes from a solution of the three-index model

jinete/algorithms/exacts/models/three_index.py:327-337, 378-451 and jinete/algorithms/exacts/milp.py. Vehicles and trips of the
job are identity numbers of the environment; the tuples `_vehicles` and `_trips` (three_index.py:133-139) list them in
some order.
-/

set_option autoImplicit false

namespace Jinete

variable (E : Env)

/-- The instance the model is built from: `_vehicles`, `_trips` (three_index.py:133-139) and the surface. -/
def milpOf (vs ts : List Nat) : Milp := ⟨vs.map E.vehicle, ts.map E.trip, E.metric⟩

/-- `_positions_to_stops`, three_index.py:430-438, from the stops collected so far. -/
def positionsToStops (veh : Nat) (stops : List Nat) : List Pos → M (List Nat)
  | [] => pure stops
  | p :: ps => do
    let last ← Py.unwrap .indexError stops.getLast?
    let h ← Py.read
    if p = (h.core.stop last).position then positionsToStops veh stops ps
    else do
      let s ← newStop veh p (some last)
      positionsToStops veh (stops ++ [s]) ps

/-- `_stop_to_stop_mapper`, three_index.py:440-445: the stops at each position in the order of the list; positions
without stops have the empty list (`defaultdict(list)`). -/
def stopMapper (c : Core) (stops : List Nat) (p : Pos) : List Nat :=
  stops.filter fun s => decide ((c.stop s).position = p)

/-- `stop_mapper[p].pop(0)`, three_index.py:414-415. -/
def popFirst (mapper : Pos → List Nat) (p : Pos) : M (Nat × (Pos → List Nat)) :=
  match mapper p with
  | [] => Py.raise .indexError
  | s :: l => pure (s, Function.update mapper p l)

/-- The loop of `_build_planned_trips`, three_index.py:413-417 (the list it returns is not used). -/
def buildPlannedTrips (veh : Nat) (mapper : Pos → List Nat) : List Nat → M Unit
  | [] => pure ()
  | t :: ts => do
    let (u, mapper) ← popFirst mapper (E.trip t).origin.position
    let (d, mapper) ← popFirst mapper (E.trip t).destination.position
    let _ ← newPlannedTrip E veh t (some u) (some d)
    buildPlannedTrips veh mapper ts

/-- `_idx_by_position`, three_index.py:190-191: the *first* index with that position, or `ValueError`. -/
def idxByPosition (P : Milp) (p : Pos) : M Nat :=
  if p ∈ P.positions then pure (P.positions.idxOf p) else Py.raise .valueError

/-- The body of the loop of `_adjust_waiting_times`, three_index.py:447-451. -/
def adjustWaitingTime (P : Milp) (a : Assignment) (k s : Nat) : M Unit := do
  Py.modify fun h => flushStop h s
  let h ← Py.read
  let i ← idxByPosition P (h.core.stop s).position
  setStarting s (a.u k i)

/-- The body of the loop of `_solution_to_routes`, three_index.py:381-395, for vehicle `veh` with index `k`. -/
def decodeRoute (vs ts : List Nat) (a : Assignment) (k veh : Nat) : M Nat := do
  let r ← newRoute E veh
  let ps := (milpOf E vs ts).visitedPositions a k
  let first ← firstStop r
  let stops ← positionsToStops veh [first] ps
  let h ← Py.read
  buildPlannedTrips E veh (stopMapper h.core stops) (((milpOf E vs ts).tripsOfPositions ps).map fun i => ts.getD i 0)
  Py.forEach stops (adjustWaitingTime (milpOf E vs ts) a k)
  Py.forEach stops fun s => do
    let _ ← insertStop r s
  pure r

/-- `_solution_to_routes`, three_index.py:378-396; the set of routes in the order in which they are built. -/
def decodeRoutes (vs ts : List Nat) (a : Assignment) : M (List Nat) :=
  Py.mapEach vs.zipIdx fun vk => decodeRoute E vs ts a vk.2 vk.1

/-- `MilpAlgorithm._optimize`, jinete/algorithms/exacts/milp.py:52-57, with `solve`, three_index.py:327-337, after the
solver has stored the assignment `a`: validate it and build the routes of the planning. -/
def milpOptimize (vs ts : List Nat) (a : Assignment) : M (List Nat) := do
  Py.assert ((milpOf E vs ts).validates a)
  decodeRoutes E vs ts a

end Jinete
