import Verif.Model.Rounded
import Verif.Model.Objective

/-!
# Values of plannings in floating point

`DialARideObjective` (jinete/models/objectives.py:105-112) with a rounding after every addition. Numbers of trips are Python
integers, which are added exactly; distances are floats.
-/

set_option autoImplicit false

namespace Jinete

namespace Reckoning

variable (K : Reckoning) (E : Env)

/-- A sum from the left that starts with zero: `sum` (jinete/models/routes.py:220; since Python 3.12 `sum` compensates for the
rounding of floats, which is not modelled) and `reduce` with `add` (jinete/models/objectives.py:81-85). -/
def total (l : List ℚ) : ℚ := l.foldl (fun s x => K.round (s + x)) 0

/-- `Route.distance`, jinete/models/routes.py:218-220, with `Stop.distance`, jinete/models/stops.py:149-151. -/
def routeDistance (c : Core) (r : Nat) : ℚ :=
  K.total ((c.route r).stops.map fun s => K.dist (c.stop s).position (stopPrevPosition E c s))

/-- `DialARideObjective._route_optimization_function`, jinete/models/objectives.py:111-112. -/
def routeValue (c : Core) (r : Nat) : ℕ × ℚ := ((routeTrips c r).length, -K.routeDistance E c r)

/-- `Objective._planning_optimization_function`, jinete/models/objectives.py:80-85: the routes in the order in which the set of
routes is iterated. -/
def planningValue (c : Core) (routes : List Nat) : ℕ × ℚ :=
  (routes.map (K.routeValue E c)).foldl (fun a b => (a.1 + b.1, K.round (a.2 + b.2))) (0, 0)

/-- Tuples are compared by their first components that differ. -/
def less (a b : ℕ × ℚ) : Bool := decide (a.1 < b.1) || (decide (a.1 = b.1) && decide (a.2 < b.2))

/-- `Objective.best` of plannings, jinete/models/objectives.py:58-59: `max` keeps the first of the largest. -/
def best (c : Core) : List (List Nat) → Option (List Nat)
  | [] => none
  | l :: ls => some (ls.foldl (fun b x => if less (K.planningValue E c b) (K.planningValue E c x) then x else b) l)

end Reckoning

end Jinete
