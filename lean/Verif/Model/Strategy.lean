import Verif.Model.Cloner
import Verif.Model.Utils

/-!
# Insertion strategies, jinete/algorithms/heuristics/insertion/strategies/*.py
-/

set_option autoImplicit false

namespace Jinete

variable (E : Env)

/-- Python `max(l, default=None, key=attrgetter("duration"))`, strategies/abc.py:80: keys are evaluated
in order, the first maximal element wins. -/
def maxByDuration (l : List Nat) : M (Option Nat) := do
  let ks ← Py.mapEach l fun p => do
    let d ← ptDuration E p
    pure (p, d)
  pure (pick ks)
where
  /-- first element with maximal key -/
  pick : List (Nat × ℚ) → Option Nat
    | [] => none
    | x :: l => some (l.foldl (fun best y => if best.2 < y.2 then y else best) x).1

/-- `max(planned_trip.duration - planned_trip.timeout, 0)`, strategies/abc.py:84. With an infinite
timeout the difference is `-inf`. -/
def excess (dur : ℚ) : Bound → ℚ
  | .fin t => max (dur - t) 0
  | .inf => 0

/-- One iteration of the shifting loop, strategies/abc.py:79-87. -/
def shiftStop (r i : Nat) : M Unit := do
  let l ← routeStops r
  let s ← Py.index l i
  let h ← Py.read
  match ← maxByDuration E (h.core.stop s).pickups with
  | none => pure ()
  | some p => do
    let st ← starting E s
    let d ← ptDuration E p
    setStarting s (st + excess d (ptTrip E h.core p).timeout)
    Py.modify fun h => flushStops h (l.drop i)

/-- `for i in reversed(range(lo, n))`, strategies/abc.py:78: the first argument counts the remaining
iterations, `i = lo + k`. -/
def shiftLoop (r lo : Nat) : Nat → M Unit
  | 0 => pure ()
  | k + 1 => do
    shiftStop E r (lo + k)
    shiftLoop r lo k

/-- The depot adjustment, strategies/abc.py:71-73. -/
def adjustDepot (r : Nat) : M Unit := do
  let l ← routeStops r
  let s1 ← Py.index l 1
  let w ← waitingTime E s1
  if w ≠ 0 then do
    let s0 ← Py.index l 0
    let w ← waitingTime E s1
    setStarting s0 w
    Py.modify fun h => flushStop h s0
    Py.modify fun h => flushStop h s1
  else pure ()

/-- `InsertionStrategy._improve_ride_times`, strategies/abc.py:70-92. -/
def improveRideTimes (r idx : Nat) : M Unit := do
  adjustDepot E r
  let b ← routeFeasible E r
  if b then pure ()
  else do
    let l ← routeStops r
    let lo := max idx 1
    shiftLoop E r lo (l.length - lo)
    flushRoute r
    let _ ← routeFeasible E r
    pure ()

/-- `InsertionStrategy._build_pickup`, strategies/abc.py:94-98. -/
def buildPickup (r trip i : Nat) : M Nat := do
  let h ← Py.read
  let prev ← Py.index (h.core.route r).stops i
  newStop (h.core.route r).vehicle (E.trip trip).origin.position (some prev)

/-- `pickup if previous_idx + 1 == following_idx else route.stops[following_idx - 1]`,
strategies/abc.py:102. `j >= 1` because `i < j`. -/
def previousDelivery (l : List Nat) (i j pickup : Nat) : M Nat :=
  if i + 1 = j then pure pickup else Py.index l (j - 1)

/-- `InsertionStrategy._build_delivery`, strategies/abc.py:100-104. -/
def buildDelivery (r trip i j pickup : Nat) : M Nat := do
  let h ← Py.read
  let prev ← previousDelivery (h.core.route r).stops i j pickup
  newStop (h.core.route r).vehicle (E.trip trip).destination.position (some prev)

/-- `InsertionStrategy._compute_one`, strategies/abc.py:57-68. -/
def computeOne (r trip i j : Nat) : M Nat := do
  let (r', idx) ← cloneRouteIdx E r (i + 1)
  let pickup ← buildPickup E r' trip i
  let delivery ← buildDelivery E r' trip i j pickup
  let h ← Py.read
  let p ← newPlannedTrip E (h.core.route r').vehicle trip (some pickup) (some delivery)
  appendPlannedTrip E r' p
  improveRideTimes E r' idx
  pure r'

/-- `not only_feasible or r.feasible`, strategies/abc.py:54. -/
def keepRoute (onlyFeasible : Bool) (r : Nat) : M Bool :=
  if onlyFeasible then routeFeasible E r else pure true

/-- The generator and filter of `InsertionStrategy.compute`, strategies/abc.py:53-54: each candidate is
built and then tested. -/
def computeEach (onlyFeasible : Bool) (r i j : Nat) : List Nat → M (List Nat)
  | [] => pure []
  | t :: ts => do
    let r' ← computeOne E r t i j
    let keep ← keepRoute E onlyFeasible r'
    let rs ← computeEach onlyFeasible r i j ts
    pure (if keep then r' :: rs else rs)

/-- `InsertionStrategy.compute`, strategies/abc.py:35-55, for explicit indices. -/
def compute (onlyFeasible : Bool) (r : Nat) (trips : List Nat) (i j : Nat) : M (List Nat) := do
  Py.assert (decide (i < j))
  computeEach E onlyFeasible r i j trips

/-- `for i, j in pairs: routes += super().compute(route, trips, i, j)`: the common body of
`IntensiveInsertionStrategy.compute` (strategies/intensive.py:33-36) and
`SamplingInsertionStrategy.compute` (strategies/sampling.py:45-48). -/
def computePairs (onlyFeasible : Bool) (r : Nat) (trips : List Nat) : List (Nat × Nat) → M (List Nat)
  | [] => pure []
  | (i, j) :: ps => do
    let a ← compute E onlyFeasible r trips i j
    let b ← computePairs onlyFeasible r trips ps
    pure (a ++ b)

/-- `IntensiveInsertionStrategy.compute`, strategies/intensive.py:30-36. -/
def computeIntensive (onlyFeasible : Bool) (r : Nat) (trips : List Nat) : M (List Nat) := do
  let l ← routeStops r
  computePairs E onlyFeasible r trips (combinations2 l.length)

/-- `TailInsertionStrategy.compute`, strategies/tail.py:28-32. -/
def computeTail (onlyFeasible : Bool) (r : Nat) (trips : List Nat) : M (List Nat) := do
  let l ← routeStops r
  compute E onlyFeasible r trips (l.length - 2) (l.length - 1)

/-- `SamplingInsertionStrategy.compute`, strategies/sampling.py:38-48. The random stream is an argument; the
rejection loop of `sample_index_pairs` runs with fuel. -/
def computeSampling (onlyFeasible : Bool) (r : Nat) (trips : List Nat) (count : Nat) (rnd : Nat → Nat → Nat → Nat)
    (fuel : Nat) : M (List Nat) := do
  let l ← routeStops r
  match sampleIndexPairs l.length count rnd fuel with
  | some ps => computePairs E onlyFeasible r trips ps
  | none => Py.raise .outOfFuel

end Jinete
