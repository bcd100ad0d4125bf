import Verif.Model.Route
import Verif.Model.Direction
import Mathlib.Order.WithBot
import Mathlib.Algebra.Order.Field.Rat

/-!
# Route criteria, jinete/models/criterions.py
-/

set_option autoImplicit false

namespace Jinete

variable (E : Env)

/-- A score: a rational number or one of `MIN_FLOAT = -inf`, `MAX_FLOAT = inf`
(jinete/models/constants.py:41-42). -/
abbrev Score := WithBot (WithTop ℚ)

/-- A finite score. -/
def Score.fin (q : ℚ) : Score := ((q : WithTop ℚ) : WithBot (WithTop ℚ))
/-- `MAX_FLOAT` -/
def Score.inf : Score := ((⊤ : WithTop ℚ) : WithBot (WithTop ℚ))
/-- `MIN_FLOAT` -/
def Score.ninf : Score := ⊥

/-- The six subclasses of `RouteCriterion`, jinete/models/criterions.py:53-139. -/
inductive Criterion
  | earliestLastDeparture
  | shortestAverageDuration
  | shortestTime
  | longestTime
  | longestUtilTime
  | hashCode
  deriving DecidableEq

/-- The direction passed to `super().__init__`, jinete/models/criterions.py:56, 69, 85, 98, 111, 127. -/
def Criterion.direction : Criterion → Direction
  | .earliestLastDeparture | .shortestAverageDuration | .shortestTime => .minimization
  | .longestTime | .longestUtilTime | .hashCode => .maximization

/-- The score of an infeasible route: `MAX_FLOAT` or `MIN_FLOAT`, first lines of each `scoring`,
jinete/models/criterions.py:60-61, 73-74, 89-90, 102-103, 115-116, 131-132. -/
def Criterion.worst : Criterion → Score
  | .earliestLastDeparture | .shortestAverageDuration | .shortestTime => .inf
  | .longestTime | .longestUtilTime | .hashCode => .ninf

/-- `statistics.mean` of a non-empty list of rationals. -/
def mean (l : List ℚ) : ℚ := l.sum / l.length

/-- One summand of `HashCodeRouteCriterion.scoring`, jinete/models/criterions.py:136-138. -/
def hashCodeTripScore (p : Nat) : M ℚ := do
  let h ← Py.read
  let t := ptTrip E h.core p
  let u ← pickupTime E p
  pure (t.distance E.metric + if u = t.originEarliest then t.onTimeBonus else 0)

/-- What each criterion computes for a feasible route, jinete/models/criterions.py:63, 76-79, 92, 105,
118-121, 134-139. -/
def Criterion.value (r : Nat) : Criterion → M ℚ
  | .earliestLastDeparture => do departure E (← lastStop r)
  | .shortestAverageDuration => do
    let h ← Py.read
    if (routePlannedTrips h.core r).isEmpty then pure 0
    else do
      let l ← Py.mapEach (routePlannedTrips h.core r) (ptDuration E)
      pure (mean l)
  | .shortestTime => routeDuration E r
  | .longestTime => routeDuration E r
  | .longestUtilTime => do
    let h ← Py.read
    pure (((routeTrips h.core r).map fun t => (E.trip t).distance E.metric).sum)
  | .hashCode => do
    let h ← Py.read
    let l ← Py.mapEach (routePlannedTrips h.core r) (hashCodeTripScore E)
    pure l.sum

/-- `RouteCriterion.scoring` of each subclass. -/
def Criterion.scoring (k : Criterion) (r : Nat) : M Score := do
  let b ← routeFeasible E r
  if ¬ b then pure k.worst
  else do
    let v ← k.value E r
    pure (.fin v)

/-- `RouteCriterion.best`, jinete/models/criterions.py:43-44. -/
def Criterion.best (k : Criterion) (args : List (Option Nat)) : M (Option Nat) :=
  bestOf k.direction (k.scoring E) args

/-- `RouteCriterion.sorted`, jinete/models/criterions.py:46-47: the new order of the list. -/
def Criterion.sorted (k : Criterion) (routes : List Nat) : M (List Nat) := do
  let l ← keyed (k.scoring E) routes
  pure (k.direction.sorted l)

/-- `RouteCriterion.nbest`, jinete/models/criterions.py:49-50. -/
def Criterion.nbest (k : Criterion) (n : Nat) (routes : List Nat) : M (List Nat) := do
  let l ← keyed (k.scoring E) routes
  pure (k.direction.nbest n l)

end Jinete
