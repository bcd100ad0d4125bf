import Verif.Model.Columnar
import Verif.Model.Programs

/-!
# Texts of model objects

`Model.__repr__`, jinete/models/abc.py:51-56, with the `__iter__` of the model classes, and the program which prints what a
loader has loaded, examples/read_dataset.py.

`str` is the text of a number and does not tell integers from floats. `repr` of a string is modelled for strings without
characters that are not printable. The text of an `Objective`, which defines none, is the default one of Python and contains an
address: it is a parameter.
-/

set_option autoImplicit false

namespace Jinete

/-- `_print`, jinete/models/abc.py:54-56: `Class(key=value, key=value)`. -/
def printed (cls : String) (values : List (String × Text)) : Text :=
  cls.toList ++ '(' :: List.intercalate ", ".toList (values.map fun p => p.1.toList ++ '=' :: p.2) ++ [')']

/-- `repr` of a string: in single quotes, or in double quotes if it contains single ones only; the quote and the backslash are
escaped. -/
def strRepr (t : Text) : Text :=
  let q := if '\'' ∈ t ∧ '"' ∉ t then '"' else '\''
  q :: t.flatMap (fun c => if c = q ∨ c = '\\' then ['\\', c] else [c]) ++ [q]

/-- `repr` of a tuple, from the `repr` of its elements. -/
def tupleRepr : List Text → Text
  | [] => "()".toList
  | [x] => '(' :: x ++ ",)".toList
  | l => '(' :: List.intercalate ", ".toList l ++ [')']

/-- `repr` of the pair of a key and a value. -/
def pairRepr (key : String) (value : Text) : Text := tupleRepr [strRepr key.toList, value]

/-- The text of a bound. -/
def boundText (str : ℚ → Text) : Bound → Text
  | .fin q => str q
  | .inf => "inf".toList

/-- `repr` of a position, jinete/models/positions.py:112-113. -/
def posRepr (str : ℚ → Text) (p : Pos) : Text := printed "GeometricPosition" [("coordinates", tupleRepr (p.map str))]

/-- `str` of a service, jinete/models/services.py:89-95. -/
def serviceText (str : ℚ → Text) (s : Service) : Text :=
  printed "Service" [("position", posText s.position), ("earliest", str s.earliest), ("latest", boundText str s.latest), ("duration", str s.duration)]

/-- `repr(tuple(service))`. -/
def serviceTuple (str : ℚ → Text) (s : Service) : Text :=
  tupleRepr [pairRepr "position" (posRepr str s.position), pairRepr "earliest" (str s.earliest), pairRepr "latest" (boundText str s.latest),
    pairRepr "duration" (str s.duration)]

/-- `str` of a vehicle, jinete/models/vehicles.py:93-100. -/
def vehicleText (str : ℚ → Text) (v : LoadedVehicle) : Text :=
  printed "Vehicle" [("identifier", v.identifier), ("origin", serviceTuple str v.vehicle.origin), ("destination", serviceTuple str v.vehicle.destination),
    ("capacity", str v.vehicle.capacity), ("timeout", boundText str v.vehicle.timeout)]

/-- `str` of a trip, jinete/models/trips.py:166-174. -/
def tripText (str : ℚ → Text) (t : LoadedTrip) : Text :=
  printed "Trip" [("identifier", t.identifier), ("origin", serviceTuple str t.trip.origin), ("destination", serviceTuple str t.trip.destination),
    ("on_time_bonus", str t.trip.onTimeBonus), ("capacity", str t.trip.capacity), ("timeout", boundText str t.trip.timeout)]

/-- `str` of a surface, jinete/models/surfaces.py:74-75; `positions` in the order of the set. -/
def surfaceText (str : ℚ → Text) (positions : List Pos) : Text :=
  printed "GeometricSurface" [("position_coordinates", tupleRepr (positions.map fun p => tupleRepr (p.map str)))]

/-- `str` of a fleet, jinete/models/vehicles.py:112-113, from the identifiers in the order of the set. -/
def fleetText (identifiers : List Text) : Text := printed "Fleet" [("vehicle_identifiers", tupleRepr (identifiers.map strRepr))]

/-- `str` of a job, jinete/models/jobs.py:61-65, from the identifiers in the order of the set. -/
def jobText (objective : Text) (identifiers : List Text) : Text :=
  printed "Job" [("trip_identifiers", tupleRepr (identifiers.map strRepr)), ("objective", objective)]

section

variable (E : Env) (ident vehicleIdent : Nat → Text)

/-- `str` of a stop, jinete/models/stops.py:219-223. -/
def stopText (c : Core) (s : Nat) : Text := printed "Stop" [("position", posText (c.stop s).position), ("identifier", stopIdentifier ident c s)]

/-- `Route.identifier`, jinete/models/routes.py:94-96. -/
def routeIdentifier (c : Core) (r : Nat) : Text := joinWith '|' ((c.route r).stops.map (stopIdentifier ident c))

/-- `str` of a route, jinete/models/routes.py:228-232. Routes without vehicle are not modelled. -/
def routeText (c : Core) (r : Nat) : Text :=
  printed "Route" [("vehicle_identifier", vehicleIdent (c.route r).vehicle),
    ("stops_identifiers", tupleRepr ((c.route r).stops.map fun s => strRepr (stopIdentifier ident c s)))]

/-- `str` of a planning, jinete/models/plannings.py:79-80; `routes` in the order of the set. -/
def planningText (uuid : Text) (c : Core) (routes : List Nat) : Text :=
  printed "Planning" [("uuid", uuid), ("route_identifiers", tupleRepr (routes.map fun r => strRepr (routeIdentifier ident c r)))]

/-- `str` of a result, jinete/models/results.py:99-105: the fleet and the job are turned into tuples of pairs. `objective` is the text of
the objective. -/
def resultText (algorithm uuid objective : Text) (vehicles trips : List Text) : Text :=
  printed "Result" [("fleet_uuid", tupleRepr [pairRepr "vehicle_identifiers" (tupleRepr (vehicles.map strRepr))]),
    ("job", tupleRepr [pairRepr "trip_identifiers" (tupleRepr (trips.map strRepr)), pairRepr "objective" objective]),
    ("algorithm_name", algorithm), ("planning_uuid", uuid)]

/-- `str` of a stop or of `None`. -/
def optionalStop (c : Core) : Option Nat → Text
  | none => "None".toList
  | some s => stopText ident c s

/-- `str` of a planned trip, jinete/models/planned_trips.py:146-152. It asks whether the trip is feasible. -/
def plannedTripText (p : Nat) : M Text := do
  let h ← Py.read
  let b ← ptFeasible E p
  pure (printed "PlannedTrip" [("trip_identifier", ident (h.core.pt p).trip), ("pickup", optionalStop ident h.core (h.core.pt p).pickup),
    ("delivery", optionalStop ident h.core (h.core.pt p).delivery), ("feasible", if b then "True".toList else "False".toList)])

/-- `Objective.optimization_function` with the message it logs, jinete/models/objectives.py:61-75. The message is made whether or not it
is shown, so the text of the value is computed. `result` is the text of a result, which does not depend on its routes. -/
def loggedValue (str : ℚ → Text) (result uuid : Text) (k : Objective) (v : Optimizable) : M (List ℚ × Text) := do
  let x ← k.value E v
  let h ← Py.read
  let t ← match v with
    | .result _ => pure result
    | .planning l => pure (planningText ident uuid h.core l)
    | .route r => pure (routeText ident vehicleIdent h.core r)
    | .stop s => pure (stopText ident h.core s)
    | .plannedTrip p => plannedTripText E ident p
    | .tuple w => pure (tupleText str w)
  pure (x, "Computed optimization function value and obtained \"".toList ++ tupleText str x ++ "\" from \"".toList ++ t ++ "\".".toList)

end

/-- What the texts depend on that is not in the code: the text of numbers and of an objective, and the orders of the sets. -/
structure Wording where
  str : ℚ → Text
  objective : Objective → Text
  positions : List Pos → List Pos
  vehicles : List LoadedVehicle → List LoadedVehicle
  trips : List LoadedTrip → List LoadedTrip

/-- `print`. -/
def sayText {σ : Type} (t : Text) : Py (World σ) Unit := Py.modify fun w => { w with printed := w.printed ++ [t] }

/-- `main` of examples/read_dataset.py:11-17, for any source and formatter. The program itself gives no formatter, so that its data are read
as Cordeau-Laporte ones. -/
def readDataset (U : Setup) (W : Wording) (source : Text) (formatter : Option InputFormat) : Py Site Unit := do
  let kwargs : Kwargs Item := ("file_path", .path source) :: (formatter.elim [] fun F => [("formatter_cls", .input F)])
  let loader ← fileLoader U.euclid kwargs
  let surface ← onLoader loaderSurface
  sayText ("Surface: \n  ".toList ++ surfaceText W.str (W.positions surface.positions))
  match ← loader.fleet with
  | .fleet vehicles =>
    sayText ("Fleet: \n  ".toList ++ fleetText ((W.vehicles vehicles).map LoadedVehicle.identifier))
    match ← loader.job with
    | .job _ objective trips => sayText ("Job: \n  ".toList ++ jobText (W.objective objective) ((W.trips trips).map LoadedTrip.identifier))
    | _ => Py.raise .typeError
  | _ => Py.raise .typeError

end Jinete
