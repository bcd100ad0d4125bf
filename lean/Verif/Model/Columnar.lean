import Verif.Model.Objective
import Verif.Model.Storer
import Mathlib.Data.Rat.Floor

/-!
# The columnar report

jinete/storers/formatters/columnar.py, with the properties of planned trips it asks for
(jinete/models/planned_trips.py), identifiers of stops (jinete/models/stops.py) and the text of positions
(jinete/models/positions.py). Numbers are exact, so that there is no negative zero; `str` of a number is a parameter.
-/

set_option autoImplicit false

namespace Jinete

/-! ## Numbers in columns -/

/-- Rounding to an integer, ties to the even one: what Python's `f` format does with the exact value. -/
def roundHalfEven (q : ℚ) : ℤ :=
  if q - ⌊q⌋ < 1 / 2 then ⌊q⌋
  else if 1 / 2 < q - ⌊q⌋ then ⌊q⌋ + 1
  else if ⌊q⌋ % 2 = 0 then ⌊q⌋ else ⌊q⌋ + 1

/-- Pad on the left to a width. -/
def padLeft (c : Char) (w : Nat) (t : Text) : Text := List.replicate (w - t.length) c ++ t

/-- Pad on the right to a width: `f"{s:5}"` of a string. -/
def padRight (c : Char) (w : Nat) (t : Text) : Text := t ++ List.replicate (w - t.length) c

/-- The digits of a number that is not negative, with `d` digits after the point. -/
def fixedDigits (d : Nat) (q : ℚ) : Text :=
  let n := (roundHalfEven (q * 10 ^ d)).toNat
  decimal (n / 10 ^ d) ++ if d = 0 then [] else '.' :: padLeft '0' d (decimal (n % 10 ^ d))

/-- The sign of a number: a minus or nothing. -/
def signText (q : ℚ) : Text := if q < 0 then ['-'] else []

/-- `f"{q:w.df}"`: rounded to `d` digits after the point, padded with blanks to width `w`
(jinete/storers/formatters/columnar.py:68-70, 78-83 and 92-96). -/
def formatFixed (w d : Nat) (q : ℚ) : Text := padLeft ' ' w (signText q ++ fixedDigits d |q|)

/-- `f"{q:0w.df}"`: padded with zeros between sign and digits (jinete/models/positions.py:116). -/
def formatZeros (w d : Nat) (q : ℚ) : Text := signText q ++ padLeft '0' (w - (signText q).length) (fixedDigits d |q|)

/-- `f"{b:w.df}"` of a number that may be `inf`. -/
def formatBound (w d : Nat) : Bound → Text
  | .fin q => formatFixed w d q
  | .inf => padLeft ' ' w ['i', 'n', 'f']

/-- `GeometricPosition.__str__`, jinete/models/positions.py:115-117. -/
def posText (p : Pos) : Text := '(' :: joinWith ',' (p.map (formatZeros 7 3)) ++ [')']

/-! ## What is asked -/

variable (E : Env)

/-- The loops of `PlannedTrip.waiting_time` and `PlannedTrip.transit_time`, jinete/models/planned_trips.py:92-108: add up an
attribute of the stops from the delivery back to, but without, the pickup. `None.waiting_time` raises `AttributeError`. -/
def walkBack (f : Nat → M ℚ) (pickup : Option Nat) : Nat → Option Nat → ℚ → M ℚ
  | 0, _, _ => Py.raise .outOfFuel
  | n + 1, current, acc =>
    if current = pickup then pure acc
    else do
      let s ← Py.unwrap .attributeError current
      let v ← f s
      let h ← Py.read
      walkBack f pickup n (h.core.stop s).previous (acc + v)

/-- `PlannedTrip.waiting_time`, jinete/models/planned_trips.py:92-99. -/
def ptWaitingTime (p : Nat) : M ℚ := do
  let h ← Py.read
  walkBack (waitingTime E) (h.core.pt p).pickup (h.core.nStop + 1) (h.core.pt p).delivery 0

/-- `PlannedTrip.transit_time`, jinete/models/planned_trips.py:101-108. -/
def ptTransitTime (p : Nat) : M ℚ := do
  let h ← Py.read
  walkBack (transitTime E) (h.core.pt p).pickup (h.core.nStop + 1) (h.core.pt p).delivery 0

/-- `PlannedTrip.load_time`, jinete/models/planned_trips.py:110-112. -/
def ptLoadTime (p : Nat) : M ℚ := do
  let d ← ptDelivery p
  let u ← ptPickup p
  let h ← Py.read
  pure (stopLoadTime E h.core d + stopLoadTime E h.core u)

/-- `Stop.identifier`, jinete/models/stops.py:79-87; `ident` gives the identifiers of trips. -/
def stopIdentifier (ident : Nat → Text) (c : Core) (s : Nat) : Text :=
  '[' :: joinWith '|' (((c.stop s).pickups.map fun p => 'P' :: ident (c.pt p).trip) ++
    ((c.stop s).deliveries.map fun p => 'D' :: ident (c.pt p).trip)) ++ [']']

/-! ## The rows -/

/-- What is shown of a planned trip, jinete/storers/formatters/columnar.py:73-86. -/
structure TripRow where
  ident : Text
  origin : Pos
  destination : Pos
  earliest : ℚ
  latest : Bound
  waiting : ℚ
  transit : ℚ
  load : ℚ
  duration : ℚ
  pick : ℚ
  drop : ℚ
  capacity : ℚ
  deriving DecidableEq

/-- What is shown of a stop, jinete/storers/formatters/columnar.py:88-100. -/
structure StopRow where
  ident : Text
  pos : Pos
  earliest : ℚ
  latest : Bound
  waiting : ℚ
  transit : ℚ
  load : ℚ
  departure : ℚ
  capacity : ℚ
  deriving DecidableEq

/-- What is shown of a route: its vehicle, planned trips and stops, jinete/storers/formatters/columnar.py:50-71. -/
structure RouteRows where
  vehicle : Text
  initial : Pos
  final : Pos
  earliest : ℚ
  latest : Bound
  capacity : ℚ
  trips : List TripRow
  stops : List StopRow
  deriving DecidableEq

/-- What the report shows, jinete/storers/formatters/columnar.py:33-48. -/
structure Overview where
  uuid : Text
  count : Nat
  routes : List RouteRows
  seconds : ℚ
  coverage : ℚ
  objective : Objective
  value : List ℚ
  feasible : Bool
  deriving DecidableEq

/-- `_planned_trip_to_str`, jinete/storers/formatters/columnar.py:73-86: what is evaluated, in that order. -/
def tripRow (ident : Nat → Text) (p : Nat) : M TripRow := do
  let h ← Py.read
  let t := ptTrip E h.core p
  let waiting ← ptWaitingTime E p
  let transit ← ptTransitTime E p
  let load ← ptLoadTime E p
  let duration ← ptDuration E p
  let pick ← pickupTime E p
  let drop ← deliveryTime E p
  pure { ident := ident (h.core.pt p).trip, origin := t.origin.position, destination := t.destination.position,
         earliest := t.originEarliest, latest := t.destinationLatest, waiting, transit, load, duration, pick, drop,
         capacity := t.capacity }

/-- `_stop_to_str`, jinete/storers/formatters/columnar.py:88-100. -/
def stopRow (ident : Nat → Text) (s : Nat) : M StopRow := do
  let h ← Py.read
  let waiting ← waitingTime E s
  let transit ← transitTime E s
  let departure ← departure E s
  let capacity ← capacity E s
  pure { ident := stopIdentifier ident h.core s, pos := (h.core.stop s).position, earliest := stopEarliest E h.core s,
         latest := stopLatest E h.core s, waiting, transit, load := stopLoadTime E h.core s, departure, capacity }

/-- `_route_to_str` and `_vehicle_to_str`, jinete/storers/formatters/columnar.py:50-71. -/
def routeRows (ident vehicleIdent : Nat → Text) (r : Nat) : M RouteRows := do
  let h ← Py.read
  let trips ← Py.mapEach (routePlannedTrips h.core r) (tripRow E ident)
  let stops ← Py.mapEach (h.core.route r).stops (stopRow E ident)
  let v := E.vehicle (h.core.route r).vehicle
  pure { vehicle := vehicleIdent (h.core.route r).vehicle, initial := v.origin.position, final := v.destination.position,
         earliest := v.origin.earliest, latest := v.origin.latest, capacity := v.capacity, trips, stops }

/-- `ColumnarStorerFormatter.format`, jinete/storers/formatters/columnar.py:33-48, up to the text. `routes` are the routes of
the planning in the order of the set, `job` the trips of the job. -/
def columnarReport (ident vehicleIdent : Nat → Text) (uuid : Text) (seconds : ℚ) (k : Objective) (removeEmpty : Bool)
    (job routes : List Nat) : M Overview := do
  let h ← Py.read
  let shown := if removeEmpty then planningLoadedRoutes h.core routes else routes
  let rows ← Py.mapEach shown (routeRows E ident vehicleIdent)
  let coverage ← coverageRate E job routes
  let value ← k.planning E routes
  let feasible ← planningFeasible E routes
  pure { uuid, count := shown.length, routes := rows, seconds, coverage, objective := k, value, feasible }

/-! ## The text -/

/-- `str` of a tuple of numbers. -/
def tupleText (str : ℚ → Text) : List ℚ → Text
  | [] => "()".toList
  | [q] => '(' :: str q ++ ",)".toList
  | l => '(' :: List.intercalate ", ".toList (l.map str) ++ [')']

/-- `objective.__class__.__name__`. -/
def Objective.className : Objective → Text
  | .dialARide => "DialARideObjective".toList
  | .taxiSharing => "TaxiSharingObjective".toList
  | .hashCode => "HashCodeObjective".toList

/-- `key: "value"`. -/
def quoted (key value : Text) : Text := key ++ ": \"".toList ++ value ++ ['"']

/-- The line of a planned trip, jinete/storers/formatters/columnar.py:73-86. -/
def TripRow.text (str : ℚ → Text) (tab : Text) (x : TripRow) : Text :=
  List.intercalate tab [
    "ID: ".toList ++ padRight ' ' 5 x.ident,
    "P: ".toList ++ posText x.origin ++ " to ".toList ++ posText x.destination,
    "TW: ".toList ++ formatFixed 7 1 x.earliest ++ " to ".toList ++ formatBound 7 1 x.latest,
    "WT: ".toList ++ formatFixed 7 1 x.waiting,
    "NT: ".toList ++ formatFixed 7 1 x.transit,
    "LT: ".toList ++ formatFixed 4 1 x.load,
    "TT: ".toList ++ formatFixed 6 1 x.duration,
    "T: ".toList ++ formatFixed 7 1 x.pick ++ " to ".toList ++ formatFixed 7 1 x.drop,
    "L: ".toList ++ str x.capacity]

/-- The line of a stop, jinete/storers/formatters/columnar.py:88-100. -/
def StopRow.text (str : ℚ → Text) (tab : Text) (x : StopRow) : Text :=
  List.intercalate tab [
    "ID: ".toList ++ padRight ' ' 5 x.ident,
    "P: ".toList ++ posText x.pos,
    "TW: ".toList ++ formatFixed 7 1 x.earliest ++ " to ".toList ++ formatBound 7 1 x.latest,
    "WT: ".toList ++ formatFixed 7 1 x.waiting,
    "NT: ".toList ++ formatFixed 7 1 x.transit,
    "LT: ".toList ++ formatFixed 5 1 x.load,
    "DT: ".toList ++ formatFixed 7 1 x.departure,
    "L: ".toList ++ str x.capacity]

/-- The lines of a route, jinete/storers/formatters/columnar.py:50-71. -/
def RouteRows.lines (str : ℚ → Text) (tab : Text) (x : RouteRows) : List Text :=
  "Vehicle: ".toList ::
    ([quoted "ID".toList x.vehicle,
      "Initial:  ".toList ++ posText x.initial,
      "Final:    ".toList ++ posText x.final,
      "Earliest: ".toList ++ formatFixed 7 2 x.earliest,
      "Latest:   ".toList ++ formatBound 7 2 x.latest,
      "Capacity: ".toList ++ formatFixed 7 2 x.capacity].map (tab ++ ·)) ++
    quoted "Planned Trips".toList (decimal x.trips.length) :: x.trips.map (fun y => tab ++ y.text str tab) ++
    quoted "Stops".toList (decimal x.stops.length) :: x.stops.map (fun y => tab ++ y.text str tab)

/-- The text of the report, jinete/storers/formatters/columnar.py:36-48. -/
def Overview.text (str : ℚ → Text) (tab : Text) (x : Overview) : Text :=
  joinWith '\n' [
    quoted "Planning UUID".toList x.uuid,
    quoted "Routes count".toList (decimal x.count),
    "Routes: ".toList,
    joinWith '\n' ((x.routes.flatMap (RouteRows.lines str tab)).map (tab ++ ·)),
    quoted "Computation time".toList (formatFixed 0 4 x.seconds) ++ " seconds".toList,
    quoted "Coverage Rate".toList (str x.coverage),
    quoted "Objective".toList x.objective.className,
    quoted "Optimization Value".toList (tupleText str x.value),
    quoted "Feasible".toList (if x.feasible then "True".toList else "False".toList),
    quoted "Direction".toList "Maximization".toList]

/-- `ColumnarStorerFormatter(result).format()`, jinete/storers/formatters/columnar.py:22-48; `removeEmpty` is
`remove_empty_routes` (abc.py:31), which the storers leave at `False`. -/
def columnarFormat (str : ℚ → Text) (tab : Text) (ident vehicleIdent : Nat → Text) (uuid : Text) (seconds : ℚ) (k : Objective)
    (removeEmpty : Bool) (job routes : List Nat) : M Text := do
  let x ← columnarReport E ident vehicleIdent uuid seconds k removeEmpty job routes
  pure (x.text str tab)

end Jinete
