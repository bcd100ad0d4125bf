import Verif.Model.Text
import Verif.Model.Surface
import Verif.Model.Trip

/-!
# Loaders

jinete/loaders/abc.py, jinete/loaders/file.py, jinete/loaders/formatters/cordeau_laporte.py and
jinete/loaders/formatters/hashcode.py.

Rows are lists of finite rationals: the text `inf` or `nan` in a file is not modelled. The conversion of text to
rows is in `Model/File`. `Fleet` and `Job` hold Python sets of objects compared by identity
(`Vehicle` and `Trip` define no `__eq__`); the model keeps the list in order of creation, and the order in
which Python later iterates over the set is an oracle wherever it matters.
-/

set_option autoImplicit false

namespace Jinete

/-- The value of `FileLoader._data`, jinete/loaders/file.py:54-58: one list of numbers per line (an empty
list for a blank line). -/
abbrev Rows := List (List ℚ)

/-- A `Vehicle` with its identifier, jinete/models/vehicles.py:40-53. -/
structure LoadedVehicle where
  identifier : Text
  vehicle : Vehicle
  deriving DecidableEq

/-- A `Trip` with its identifier, jinete/models/trips.py:89-112. -/
structure LoadedTrip where
  identifier : Text
  trip : Trip
  deriving DecidableEq

/-- `int(q)` of a float: truncation towards zero. -/
def pyInt (q : ℚ) : Int := q.num.tdiv q.den

/-- The position of a row, `row[1:3]`, jinete/loaders/formatters/cordeau_laporte.py:47, 86, 95. A slice
never raises. -/
def rowPosition (row : List ℚ) : Pos := (row.drop 1).take 2

/-- The `Service(...)` built from a request row, jinete/loaders/formatters/cordeau_laporte.py:85-90 and
93-98. The arguments are evaluated in the order of the source. -/
def rowService {D : Type} (row : List ℚ) : Py (SurfaceState D) Service := do
  let position ← getOrCreatePosition (rowPosition row)
  let earliest ← Py.index row 5
  let latest ← Py.index row 6
  let duration ← Py.index row 3
  pure { position := position, earliest := earliest, latest := .fin latest, duration := duration }

/-- `CordeauLaporteLoaderFormatter._build_trip`, jinete/loaders/formatters/cordeau_laporte.py:82-108.
`f"{idx + 1:.0f}"` goes through a float, which is exact below 2^53; the model uses the integer. -/
def cordeauTrip {D : Type} (data : Rows) (idx n : Nat) : Py (SurfaceState D) LoadedTrip := do
  let originRow ← Py.index data (idx + 2)
  let origin ← rowService originRow
  let destinationRow ← Py.index data (idx + 2 + n)
  let destination ← rowService destinationRow
  let load ← Py.index originRow 4
  let unload ← Py.index destinationRow 4
  Py.assert (decide (load = -unload))
  let header ← Py.index data 0
  let timeout ← Py.index header 4
  pure { identifier := decimal (idx + 1),
         trip := { origin := origin, destination := destination, capacity := load, timeout := .fin timeout } }

/-- `CordeauLaporteLoaderFormatter.job`, jinete/loaders/formatters/cordeau_laporte.py:63-80. `row[1] // 2` is
the floor of the quotient; `range` of a negative number is empty. -/
def cordeauJob {D : Type} (data : Rows) : Py (SurfaceState D) (List LoadedTrip) := do
  let row ← Py.index data 0
  let q ← Py.index row 1
  let n := (pyInt (q / 2).floor).toNat
  Py.mapEach (List.range n) fun idx => cordeauTrip data idx n

/-- `CordeauLaporteLoaderFormatter.fleet`, jinete/loaders/formatters/cordeau_laporte.py:35-61. Every vehicle
shares the service `Service(depot_position)`, whose window is the default one. -/
def cordeauFleet {D : Type} (data : Rows) : Py (SurfaceState D) (List LoadedVehicle) := do
  let row ← Py.index data 0
  let m ← Py.index row 0
  let depotRow ← Py.index data 1
  let position ← getOrCreatePosition (rowPosition depotRow)
  let origin : Service := { position := position }
  let capacity ← Py.index row 3
  let timeout ← Py.index row 2
  pure ((List.range (pyInt m).toNat).map fun idx =>
    { identifier := decimal idx, vehicle := { origin := origin, capacity := capacity, timeout := .fin timeout } })

/-- `HashCodeLoaderFormatter._build_trip`, jinete/loaders/formatters/hashcode.py:61-77, called as
`_build_trip(surface, str(i), bonus, *row)`: a row that does not have six numbers is a `TypeError`. -/
def hashcodeTrip {D : Type} (i : Nat) (bonus : ℚ) (row : List ℚ) : Py (SurfaceState D) LoadedTrip :=
  match row with
  | [x1, y1, x2, y2, earliest, latest] => do
    let p ← getOrCreatePosition [x1, y1]
    let q ← getOrCreatePosition [x2, y2]
    pure { identifier := decimal i,
           trip := { origin := { position := p, earliest := earliest, latest := .fin latest },
                     destination := { position := q }, onTimeBonus := bonus } }
  | _ => Py.raise .typeError

/-- `HashCodeLoaderFormatter.job`, jinete/loaders/formatters/hashcode.py:43-59. -/
def hashcodeJob {D : Type} (data : Rows) : Py (SurfaceState D) (List LoadedTrip) := do
  let row ← Py.index data 0
  let bonus ← Py.index row 4
  Py.mapEach (data.drop 1).zipIdx fun p => hashcodeTrip p.2 bonus p.1

/-- `HashCodeLoaderFormatter.fleet`, jinete/loaders/formatters/hashcode.py:26-41. -/
def hashcodeFleet {D : Type} (data : Rows) : Py (SurfaceState D) (List LoadedVehicle) := do
  let row ← Py.index data 0
  let n ← Py.index row 2
  let latest ← Py.index row 5
  let position ← getOrCreatePosition [0, 0]
  let origin : Service := { position := position, latest := .fin latest }
  pure ((List.range (pyInt n).toNat).map fun idx =>
    { identifier := decimal idx, vehicle := { origin := origin, capacity := 1 } })

/-- A `LoaderFormatter` class, jinete/loaders/formatters/abc.py:24-63: what it makes of the data. -/
structure LoaderFormatter (D : Type) where
  job : Rows → Py (SurfaceState D) (List LoadedTrip)
  fleet : Rows → Py (SurfaceState D) (List LoadedVehicle)

/-- `CordeauLaporteLoaderFormatter`, the default of `Loader`, jinete/loaders/abc.py:39-46. -/
def cordeauFormatter (D : Type) : LoaderFormatter D := ⟨cordeauJob, cordeauFleet⟩

/-- `HashCodeLoaderFormatter`, jinete/loaders/formatters/hashcode.py:23-87. -/
def hashcodeFormatter (D : Type) : LoaderFormatter D := ⟨hashcodeJob, hashcodeFleet⟩

/-- A `FileLoader` together with the file it reads. `content` is what parsing the file gives at present
(it raises when the file is missing or holds something else than numbers), `reads` counts how often the
file was opened; the other four fields are the values memoised by `cached_property` (`_formatter`,
jinete/loaders/abc.py:53-55; `surface`, `fleet`, `job`, jinete/loaders/file.py:60-82). Once the surface
exists its positions are part of the state. -/
structure LoaderState (D : Type) where
  content : Except Err Rows
  reads : Nat := 0
  formatter : Option Rows := none
  surface : Option (SurfaceState D) := none
  fleet : Option (List LoadedVehicle) := none
  job : Option (List LoadedTrip) := none

/-- `Loader._formatter`, jinete/loaders/abc.py:53-55, which reads `FileLoader._data`,
jinete/loaders/file.py:54-58. -/
def loaderFormatter {D : Type} : Py (LoaderState D) Rows := do
  let s ← Py.read
  match s.formatter with
  | some data => pure data
  | none =>
    Py.modify fun s => { s with reads := s.reads + 1 }
    match s.content with
    | .error e => Py.raise e
    | .ok data =>
      Py.modify fun s => { s with formatter := some data }
      pure data

/-- `FileLoader.surface`, jinete/loaders/file.py:76-82, with `surface` of the formatters
(cordeau_laporte.py:110-119, hashcode.py:79-87): a new surface without positions. -/
def loaderSurface {D : Type} : Py (LoaderState D) (SurfaceState D) := do
  let s ← Py.read
  match s.surface with
  | some surface => pure surface
  | none =>
    let _ ← loaderFormatter
    Py.modify fun s => { s with surface := some (SurfaceState.new []) }
    pure (SurfaceState.new [])

/-- Run a formatter method on the loader's surface object. -/
def onSurface {D α : Type} (f : Py (SurfaceState D) α) : Py (LoaderState D) α := fun s =>
  match s.surface with
  | none => (.error .attributeError, s)
  | some surface => ((f surface).1, { s with surface := some (f surface).2 })

/-- `FileLoader.fleet`, jinete/loaders/file.py:60-66. -/
def loaderFleet {D : Type} (F : LoaderFormatter D) : Py (LoaderState D) (List LoadedVehicle) := do
  let s ← Py.read
  match s.fleet with
  | some fleet => pure fleet
  | none =>
    let data ← loaderFormatter
    let _ ← loaderSurface
    let fleet ← onSurface (F.fleet data)
    Py.modify fun s => { s with fleet := some fleet }
    pure fleet

/-- `FileLoader.job`, jinete/loaders/file.py:68-74. -/
def loaderJob {D : Type} (F : LoaderFormatter D) : Py (LoaderState D) (List LoadedTrip) := do
  let s ← Py.read
  match s.job with
  | some job => pure job
  | none =>
    let data ← loaderFormatter
    let _ ← loaderSurface
    let job ← onSurface (F.job data)
    Py.modify fun s => { s with job := some job }
    pure job

end Jinete
