import Verif.Model.Criterion
import Mathlib.Data.List.Lex

/-!
# Objectives, plannings and results

jinete/models/objectives.py, jinete/models/plannings.py, jinete/models/results.py. Values of objectives are
tuples of numbers, compared lexicographically as in Python. A planning is the list of its routes in the order
in which its set is iterated.
-/

set_option autoImplicit false

namespace Jinete

variable (E : Env)

/-- The three subclasses of `Objective`, jinete/models/objectives.py:105-148. -/
inductive Objective
  | dialARide
  | taxiSharing
  | hashCode
  deriving DecidableEq

/-- `dimension_count`, jinete/models/objectives.py:108, 126, 138. -/
def Objective.dim : Objective → Nat
  | .dialARide => 2
  | .taxiSharing => 1
  | .hashCode => 1

/-- `reduce(lambda a, b: tuple(map(add, a, b)), l, tuple(0 for _ in range(dim)))`,
jinete/models/objectives.py:81-85, 88-92, 95-99 (`map` stops at the shorter tuple, as `zipWith`). -/
def sumTuples (dim : Nat) (l : List (List ℚ)) : List ℚ :=
  l.foldl (List.zipWith (· + ·)) (List.replicate dim 0)

/-- The loop of `DialARideObjective._planned_trip_optimization_function`,
jinete/models/objectives.py:117-119. -/
def distanceWalk (pickup : Option Nat) : Nat → Option Nat → ℚ → M ℚ
  | 0, _, _ => Py.raise .outOfFuel
  | n + 1, current, acc =>
    if current = pickup then pure acc
    else do
      let s ← Py.unwrap .attributeError current
      let h ← Py.read
      match (h.core.stop s).previous with
      | none => pure acc
      | some q => distanceWalk pickup n (some q) (acc - stopDistance E h.core s)

/-- `_planned_trip_optimization_function`, jinete/models/objectives.py:114-120, 129-132, 141-148. The
`pickup_time` of a planned trip raises when it has no pickup stop. -/
def Objective.plannedTrip (p : Nat) : Objective → M (List ℚ)
  | .dialARide => do
    let h ← Py.read
    let d ← distanceWalk E (h.core.pt p).pickup (h.core.nStop + 1) (h.core.pt p).delivery 0
    pure [1, d]
  | .taxiSharing => do
    let h ← Py.read
    if (ptTrip E h.core p).capacity = 0 then pure [0]
    else do
      let d ← ptDuration E p
      pure [d]
  | .hashCode => do
    let h ← Py.read
    if (ptTrip E h.core p).capacity = 0 then pure [0]
    else do
      let u ← pickupTime E p
      pure [(ptTrip E h.core p).distance E.metric +
        if (ptTrip E h.core p).originEarliest = u then (ptTrip E h.core p).onTimeBonus else 0]

/-- `_stop_optimization_function`, jinete/models/objectives.py:94-99. -/
def Objective.stop (k : Objective) (s : Nat) : M (List ℚ) := do
  let h ← Py.read
  let l ← Py.mapEach (h.core.stop s).pickups (fun p => k.plannedTrip E p)
  pure (sumTuples k.dim l)

/-- `_route_optimization_function`, jinete/models/objectives.py:87-92 and 111-112. -/
def Objective.route (k : Objective) (r : Nat) : M (List ℚ) := do
  let h ← Py.read
  match k with
  | .dialARide => pure [((routeTrips h.core r).length : ℚ), - routeDistance E h.core r]
  | k => do
    let l ← Py.mapEach (h.core.route r).stops (k.stop E)
    pure (sumTuples k.dim l)

/-- `_planning_optimization_function`, jinete/models/objectives.py:80-85, and
`_result_optimization_function`, 77-78. -/
def Objective.planning (k : Objective) (routes : List Nat) : M (List ℚ) := do
  let l ← Py.mapEach routes (k.route E)
  pure (sumTuples k.dim l)

/-- What can be optimised, jinete/models/objectives.py:45. -/
inductive Optimizable
  | result (routes : List Nat)
  | planning (routes : List Nat)
  | route (r : Nat)
  | stop (s : Nat)
  | plannedTrip (p : Nat)
  | tuple (v : List ℚ)
  deriving DecidableEq

/-- `Objective.optimization_function`, jinete/models/objectives.py:61-75. -/
def Objective.value (k : Objective) : Optimizable → M (List ℚ)
  | .result l => k.planning E l
  | .planning l => k.planning E l
  | .route r => k.route E r
  | .stop s => k.stop E s
  | .plannedTrip p => k.plannedTrip E p
  | .tuple v => pure v

/-- `Objective.best`, jinete/models/objectives.py:58-59; the direction is always maximization (line 55). -/
def Objective.best (k : Objective) (args : List (Option Optimizable)) : M (Option Optimizable) :=
  bestOf .maximization (k.value E) args

/-! ## Planning and Result -/

/-- `Planning.feasible` = `Result.feasible`, jinete/models/plannings.py:75-77 and
jinete/models/results.py:68-70: `reduce` without an initial value raises `TypeError` on an empty set of
routes, and evaluates every route otherwise. -/
def planningFeasible (routes : List Nat) : M Bool := do
  let l ← Py.mapEach routes (routeFeasible E)
  match l with
  | [] => Py.raise .typeError
  | b :: l => pure (l.foldl (fun a b => a && b) b)

/-- `Planning.loaded_routes`, jinete/models/plannings.py:57-59. -/
def planningLoadedRoutes (c : Core) (routes : List Nat) : List Nat := routes.filter (routeLoaded c)

/-- `Result.completed_trips`, jinete/models/results.py:72-77: the elements of the set. Trips are identified
with their index, so two trips of a job with equal fields are different here; `Trip` does not define
equality. -/
def completedTrips (c : Core) (routes : List Nat) : List Nat :=
  (routes.flatMap (routeLoadedTrips E c)).dedup

/-- `Result.coverage_rate`, jinete/models/results.py:79-81. -/
def coverageRate (jobTrips routes : List Nat) : M ℚ := do
  let h ← Py.read
  if jobTrips.length = 0 then Py.raise .zeroDivision
  else pure (((completedTrips E h.core routes).length : ℚ) / jobTrips.length)

/-- What `Algorithm.optimize` does with the planning its `_optimize` returned,
jinete/algorithms/abc.py:54-73: log the verdict and the value, return the result. -/
def optimizeWith (k : Objective) (routes : List Nat) : M (List Nat) := do
  let _ ← planningFeasible E routes
  let _ ← k.planning E routes
  pure routes

end Jinete
