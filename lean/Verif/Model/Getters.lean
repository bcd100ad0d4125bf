import Verif.Model.LocalSearch

/-!
# Further properties of `Route` and `Stop`

No algorithm uses them, but for `Route.current_stop` (`Model/LocalSearch`); they are part of what the library offers.
-/

set_option autoImplicit false

namespace Jinete

variable (E : Env)

/-- `Route.deliveries`, jinete/models/routes.py:106-108. -/
def routeDeliveries (c : Core) (r : Nat) : List Nat :=
  (c.route r).stops.flatMap fun s => (c.stop s).deliveries

/-- `Route.positions`, jinete/models/routes.py:110-112. -/
def routePositions (c : Core) (r : Nat) : List Pos := (c.route r).stops.map fun s => (c.stop s).position

/-- `Route.feasible_stops`, jinete/models/routes.py:114-116: `reduce(and_, ..., True)` evaluates every stop. -/
def feasibleStops (r : Nat) : M Bool := do
  let h ← Py.read
  let l ← Py.mapEach (h.core.route r).stops (stopFeasible E)
  pure (l.foldl (fun a b => a && b) true)

/-- `Route.loaded_planned_trips`, jinete/models/routes.py:154-156, with `PlannedTrip.empty`, planned_trips.py:142-144. -/
def loadedPlannedTrips (c : Core) (r : Nat) : List Nat :=
  (routePlannedTrips c r).filter fun p => !(ptTrip E c p).empty

/-- `Route.loaded_trips_count`, jinete/models/routes.py:162-164. -/
def loadedTripsCount (c : Core) (r : Nat) : Nat := ((loadedPlannedTrips E c r).map fun p => (c.pt p).trip).length

/-- `Route.first_departure_time`, jinete/models/routes.py:172-174. -/
def firstDepartureTime (r : Nat) : M ℚ := do departure E (← firstStop r)

/-- `Route.last_departure_time`, jinete/models/routes.py:181-183. -/
def lastDepartureTime (r : Nat) : M ℚ := do departure E (← lastStop r)

/-- `Route.last_position`, jinete/models/routes.py:185-187. -/
def lastPosition (r : Nat) : M Pos := do
  let s ← lastStop r
  let h ← Py.read
  pure (h.core.stop s).position

/-- `Route.current_arrival_time`, jinete/models/routes.py:194-196. -/
def currentArrivalTime (r : Nat) : M ℚ := do arrival E (← currentStop r)

/-- `Route.current_departure_time`, jinete/models/routes.py:198-200. -/
def currentDepartureTime (r : Nat) : M ℚ := do departure E (← currentStop r)

/-- `Route.current_position`, jinete/models/routes.py:202-204. -/
def currentPosition (r : Nat) : M Pos := do
  let s ← currentStop r
  let h ← Py.read
  pure (h.core.stop s).position

/-- `Stop.all_previous_pickups`, jinete/models/stops.py:118-120. -/
def allPreviousPickups (s : Nat) : M (List Nat) := do
  let l ← allPrevious s
  let h ← Py.read
  pure (l.flatMap fun s => (h.core.stop s).pickups)

end Jinete
