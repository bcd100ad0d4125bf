import Verif.Model.Route
import Verif.Model.Columnar
import Mathlib.Data.Int.Log

/-!
# Times in floating point

The rest of the model computes with exact rationals; Python computes with floats. Here the getters that decide whether a route is
feasible (jinete/models/trips.py, stops.py, planned_trips.py and routes.py) are modelled once more with a rounding after every
addition and subtraction and with whatever distances the surface computes. Memoised values are left out (they hold what the getters
return, see C06 and C18); capacities are integers in both input formats, so that sums of them are exact. Neither overflow nor
NaN is modelled. With the identity as rounding these are the getters of `Model/Stop` and `Model/Route`.
-/

set_option autoImplicit false

namespace Jinete

/-- How numbers are computed: `round q` is the result of an operation whose exact value is `q`, and `dist` are the distances that
the surface returns (jinete/models/constants.py:80-86). -/
structure Reckoning where
  round : ℚ → ℚ
  dist : Pos → Pos → ℚ

/-- Arrival, start of service and departure of a stop. -/
structure StopTimes where
  arr : ℚ
  start : ℚ
  dep : ℚ
  deriving DecidableEq

namespace Reckoning

variable (K : Reckoning)

/-- Rounding of a number that may be `inf`. -/
def bound : Bound → Bound
  | .fin q => .fin (K.round q)
  | .inf => .inf

/-- `ERROR_BOUND = 10e-4`, jinete/models/constants.py:44: the literal is rounded too. -/
def tolerance : ℚ := K.round (1 / 1000)

/-! ## Trips, jinete/models/trips.py -/

/-- `Trip.origin_earliest`, jinete/models/trips.py:118-120. -/
def originEarliest (t : Trip) : ℚ :=
  match t.timeout with
  | .fin q => max (K.round (K.round (t.destination.earliest - t.destination.duration) - q)) t.origin.earliest
  | .inf => t.origin.earliest

/-- `Trip.origin_latest`, jinete/models/trips.py:122-127. -/
def originLatest (t : Trip) : Bound :=
  Bound.min (K.bound ((K.bound (t.destination.latest.subQ t.destination.duration)).subQ
    (K.dist t.origin.position t.destination.position))) t.origin.latest

/-- `Trip.destination_earliest`, jinete/models/trips.py:137-142. -/
def destinationEarliest (t : Trip) : ℚ :=
  max (K.round (K.round (t.origin.earliest + t.origin.duration) + K.dist t.origin.position t.destination.position))
    t.destination.earliest

/-- `Trip.destination_latest`, jinete/models/trips.py:144-146. -/
def destinationLatest (t : Trip) : Bound :=
  Bound.min (K.bound ((K.bound (t.origin.latest.addQ t.origin.duration)).add t.timeout)) t.destination.latest

variable (E : Env) (c : Core)

/-! ## Stops, jinete/models/stops.py -/

/-- `Stop.earliest`, jinete/models/stops.py:189-197. -/
def stopEarliest (s : Nat) : ℚ :=
  maxD 0 (((c.stop s).pickups.map fun p => K.originEarliest (ptTrip E c p)) ++
    ((c.stop s).deliveries.map fun p => K.destinationEarliest (ptTrip E c p)))

/-- `Stop.latest`, jinete/models/stops.py:199-207. -/
def stopLatest (s : Nat) : Bound :=
  minBound (((c.stop s).pickups.map fun p => K.originLatest (ptTrip E c p)) ++
    ((c.stop s).deliveries.map fun p => K.destinationLatest (ptTrip E c p)))

/-- Arrival at and departure from a stop, when the previous one (or the depot) is left at `t` and lies at `p`:
`Stop.arrival_time`, `Stop.starting_time` and `Stop.departure_time`, jinete/models/stops.py:153-155, 163-165 and 173-182. -/
def serve (t : ℚ) (p : Pos) (s : Nat) : StopTimes :=
  let a := K.round (t + K.dist p (c.stop s).position)
  let st := max (max ((c.stop s).start.getD a) (K.stopEarliest E c s)) a
  ⟨a, st, K.round (st + Jinete.stopLoadTime E c s)⟩

/-- The times of a stop, with a bound on the recursion depth along `previous`, jinete/models/stops.py:157-161. -/
def times : Nat → Nat → Except Err StopTimes
  | 0, _ => .error .recursionError
  | n + 1, s =>
    match (c.stop s).previous with
    | none => .ok (K.serve E c (E.vehicle (c.stop s).vehicle).origin.earliest (E.vehicle (c.stop s).vehicle).origin.position s)
    | some p => do
      let x ← times n p
      .ok (K.serve E c x.dep (c.stop p).position s)

/-- The times of a stop. -/
def timesOf (s : Nat) : Except Err StopTimes := K.times E c (c.nStop + 1) s

/-- `assert b`. -/
def check (b : Bool) : Except Err Unit := if b then .ok () else .error .assertion

/-- `Stop.waiting_time`, jinete/models/stops.py:167-171. -/
def waitingTime (s : Nat) : Except Err ℚ := do
  let x ← K.timesOf E c s
  check (decide (K.round (x.start - x.arr) ≥ K.round (0 - K.tolerance)))
  .ok (K.round (x.start - x.arr))

/-- `Stop.capacity`, jinete/models/stops.py:98-110; exact. -/
def load : Nat → Nat → Except Err ℚ
  | 0, _ => .error .recursionError
  | n + 1, s => do
    let q ← match (c.stop s).previous with
      | none => .ok 0
      | some p => load n p
    let v := q + sumCapacity E c (c.stop s).pickups - sumCapacity E c (c.stop s).deliveries
    check (decide (0 ≤ v))
    .ok v

/-- `Stop.all_previous`, jinete/models/stops.py:112-116. -/
def ancestors : Nat → Nat → Except Err (List Nat)
  | 0, _ => .error .recursionError
  | n + 1, s =>
    match (c.stop s).previous with
    | none => .ok []
    | some p => do
      let l ← ancestors n p
      .ok (p :: l)

/-- `Stop.feasible`, jinete/models/stops.py:130-141. -/
def stopFeasible (s : Nat) : Except Err Bool := do
  let x ← K.timesOf E c s
  if ¬ (K.stopEarliest E c s ≤ K.round (x.start + K.tolerance)) then .ok false
  else if ¬ ((K.bound ((K.stopLatest E c s).addQ K.tolerance)).leQ x.start = true) then .ok false
  else do
    let q ← load E c (c.nStop + 1) s
    if ¬ (q ≤ K.round ((E.vehicle (c.stop s).vehicle).capacity + K.tolerance)) then .ok false
    else .ok true

/-- An attribute that is used although it may be `None`. -/
def present (o : Option Nat) : Except Err Nat :=
  match o with
  | some a => .ok a
  | none => .error .attributeError

/-- `PlannedTrip.feasible`, jinete/models/planned_trips.py:122-136. -/
def tripFeasible (p : Nat) : Except Err Bool := do
  let d ← present (c.pt p).delivery
  let prev ← ancestors c (c.nStop + 1) d
  check (decide (∃ u ∈ (c.pt p).pickup, u ∈ prev))
  let u ← present (c.pt p).pickup
  let x ← K.timesOf E c u
  let y ← K.timesOf E c d
  check (decide (x.dep ≤ y.start))
  let a ← K.stopFeasible E c u
  if ¬ a then .ok false
  else do
    let b ← K.stopFeasible E c d
    if ¬ b then .ok false
    else if ¬ ((K.bound ((ptTrip E c p).timeout.addQ K.tolerance)).leQ (K.round (y.start - x.dep)) = true) then .ok false
    else .ok true

/-- `reduce(and_, (planned_trip.feasible for planned_trip in l), True)`: every one is evaluated. -/
def allFeasible : List Nat → Bool → Except Err Bool
  | [], b => .ok b
  | p :: l, b => do
    let a ← K.tripFeasible E c p
    allFeasible l (b && a)

/-- An element of the list of stops, which may be missing. -/
def element (o : Option Nat) : Except Err Nat :=
  match o with
  | some a => .ok a
  | none => .error .indexError

/-- `Route.feasible`, jinete/models/routes.py:122-136. -/
def routeFeasible (r : Nat) : Except Err Bool := do
  let v := E.vehicle (c.route r).vehicle
  let first ← element (c.route r).stops.head?
  if ¬ ((c.stop first).position = v.origin.position) then .ok false
  else do
    let x ← K.timesOf E c first
    if ¬ (K.round (v.origin.earliest - K.tolerance) ≤ x.arr) then .ok false
    else do
      let last ← element (c.route r).stops.getLast?
      if ¬ ((c.stop last).position = v.destination.position) then .ok false
      else do
        let y ← K.timesOf E c last
        if ¬ ((K.bound (v.destination.latest.addQ K.tolerance)).leQ y.dep = true) then .ok false
        else if ¬ ((K.bound (v.timeout.addQ K.tolerance)).leQ (K.round (y.dep - x.dep)) = true) then .ok false
        else K.allFeasible E c (routePlannedTrips c r) true

end Reckoning

/-- `DistanceMetric._manhattan_distance` with a rounding after every operation, jinete/models/constants.py:84-86; added from the
left (the absolute value of a float is exact). -/
def manhattanRounded (round : ℚ → ℚ) (a b : Pos) : ℚ :=
  ((a.zip b).map fun p => |round (p.1 - p.2)|).foldl (fun s x => round (s + x)) 0

/-! ## Doubles -/

/-- Rounding of a number that is not negative to 53 binary digits, ties to the even last digit; the range of exponents is not
bounded. -/
def roundPositive (q : ℚ) : ℚ := roundHalfEven (q / 2 ^ (Int.log 2 q - 52)) * 2 ^ (Int.log 2 q - 52)

/-- Rounding to a double: what IEEE 754 prescribes for the result of an addition or subtraction, and what Python's parser does
with a literal. Numbers too large or too small for a double are not treated differently. -/
def roundDouble (q : ℚ) : ℚ := if q < 0 then -roundPositive (-q) else roundPositive q

/-- Computing with doubles. -/
def doubles (dist : Pos → Pos → ℚ) : Reckoning := ⟨roundDouble, dist⟩

end Jinete
