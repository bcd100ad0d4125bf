import Verif.Model.RoundedValue

/-!
# What rides are worth, in floating point

`TaxiSharingObjective` and `HashCodeObjective` (jinete/models/objectives.py:123-148) with a rounding after every addition and
subtraction. The values of planned trips are added up stop by stop, route by route (lines 80-99); both tuples have one component.
-/

set_option autoImplicit false

namespace Jinete

namespace Reckoning

variable (K : Reckoning) (E : Env) (c : Core)

/-- `TaxiSharingObjective._planned_trip_optimization_function`, jinete/models/objectives.py:129-132, with
`PlannedTrip.duration`, `delivery_time` and `pickup_time`, jinete/models/planned_trips.py:64-70 and 114-116. -/
def tripRidden (p : Nat) : Except Err ℚ :=
  if (ptTrip E c p).capacity = 0 then .ok 0
  else do
    let d ← present (c.pt p).delivery
    let y ← K.timesOf E c d
    let u ← present (c.pt p).pickup
    let x ← K.timesOf E c u
    .ok (K.round (y.start - x.dep))

/-- `HashCodeObjective._planned_trip_optimization_function`, jinete/models/objectives.py:141-148: two floats are compared with
`==`, and the bonus is added only if they are equal. -/
def tripEarned (p : Nat) : Except Err ℚ :=
  if (ptTrip E c p).capacity = 0 then .ok 0
  else do
    let u ← present (c.pt p).pickup
    let x ← K.timesOf E c u
    let t := ptTrip E c p
    if K.originEarliest t = x.dep then .ok (K.round (K.dist t.origin.position t.destination.position + t.onTimeBonus))
    else .ok (K.dist t.origin.position t.destination.position)

/-- `reduce(lambda a, b: tuple(map(add, a, b)), (f(x) for x in l), (0,))`. -/
def addUp (f : Nat → Except Err ℚ) (l : List Nat) : Except Err ℚ :=
  l.foldlM (fun s x => do
    let v ← f x
    .ok (K.round (s + v))) 0

/-- `Objective._planning_optimization_function`, `_route_optimization_function` and `_stop_optimization_function`,
jinete/models/objectives.py:80-99, for a value `f` of planned trips. -/
def planningWorth (f : Nat → Except Err ℚ) (routes : List Nat) : Except Err ℚ :=
  K.addUp (fun r => K.addUp (fun s => K.addUp f (c.stop s).pickups) (c.route r).stops) routes

end Reckoning

end Jinete
