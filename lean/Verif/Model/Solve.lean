import Verif.Model.Algorithms
import Verif.Model.Dispatch
import Verif.Model.File
import Verif.Model.Options

/-!
# A solver that reads a file, optimises and writes a file

jinete/solvers.py with `FileLoader` (jinete/loaders/file.py), the algorithms of `Model/Algorithms` and `FileStorer`
(jinete/storers/file.py). Keyword arguments and results are `Item`s; the state holds the loader, the heap of model objects,
the files and what was printed.
-/

set_option autoImplicit false

namespace Jinete

/-- What a run acts on. -/
abbrev Site := World (LoaderState ℚ × Heap)

/-- A loader formatter class: how it makes job and fleet, the metric of its surface and the objective of its job. -/
structure InputFormat where
  formatter : LoaderFormatter ℚ
  metric : Pos → Pos → ℚ
  objective : Objective

/-- `HashCodeLoaderFormatter`, jinete/loaders/formatters/hashcode.py:43-87. -/
def hashcodeInput : InputFormat := ⟨hashcodeFormatter ℚ, manhattan, .hashCode⟩

/-- `CordeauLaporteLoaderFormatter`, jinete/loaders/formatters/cordeau_laporte.py:63-119. Euclidean distances need not be
rational: the metric is a parameter. -/
def cordeauInput (euclid : Pos → Pos → ℚ) : InputFormat := ⟨cordeauFormatter ℚ, euclid, .dialARide⟩

/-- A problem as loaded: job and fleet. -/
structure Problem where
  metric : Pos → Pos → ℚ
  objective : Objective
  trips : List LoadedTrip
  vehicles : List LoadedVehicle

/-- Trips and vehicles by number, in order of creation. What a number beyond them denotes does not matter. -/
def Problem.env (P : Problem) : Env where
  metric := P.metric
  trip k := (P.trips[k]?).elim ⟨⟨[], 0, .inf, 0⟩, ⟨[], 0, .inf, 0⟩, 1, 0, .inf⟩ LoadedTrip.trip
  vehicle k := (P.vehicles[k]?).elim ⟨⟨[], 0, .inf, 0⟩, none, 1, .inf⟩ LoadedVehicle.vehicle

/-- The vehicles, by number. -/
def Problem.fleet (P : Problem) : List Nat := List.range P.vehicles.length

/-- The trips, by number. -/
def Problem.job (P : Problem) : List Nat := List.range P.trips.length

/-- `Trip.identifier`. -/
def Problem.ident (P : Problem) (t : Nat) : Text := (P.trips[t]?).elim [] LoadedTrip.identifier

/-- `Vehicle.identifier`. -/
def Problem.vehicleIdent (P : Problem) (v : Nat) : Text := (P.vehicles[v]?).elim [] LoadedVehicle.identifier

/-- A storer formatter class: the text for a result. -/
abbrev OutputFormat := Problem → List Nat → M Text

/-- `HashCodeStorerFormatter`, jinete/storers/formatters/hashcode.py:12-37. -/
def hashcodeOutput (removeEmpty : Bool) : OutputFormat := fun P rs h => (.ok (hashcodeFormat P.env P.ident removeEmpty h.core rs), h)

/-- Storer classes other than `StorerSet`; the path may be fixed by `functools.partial`. -/
inductive StorerName
  | naive
  | prompt
  | file (path : Option Text)
  | graph (path : Option Text)
  deriving DecidableEq

/-- What is passed as keyword argument or returned. -/
inductive Item
  | path (p : Text)
  | input (F : InputFormat)
  | output (f : OutputFormat)
  | job (metric : Pos → Pos → ℚ) (objective : Objective) (trips : List LoadedTrip)
  | fleet (vehicles : List LoadedVehicle)
  | result (P : Problem) (routes : List Nat)
  | arg (a : Arg)
  | storers (l : List StorerName)

/-- Run a computation on the loader. -/
def onLoader {α : Type} (x : Py (LoaderState ℚ) α) : Py Site α := onData fun s => ((x s.1).1, ((x s.1).2, s.2))

/-- Run a computation on the heap. -/
def onObjects {α : Type} (x : M α) : Py (LoaderState ℚ × Heap) α := fun s => ((x s.2).1, (s.1, (x s.2).2))

/-- A new `FileLoader`, jinete/loaders/file.py:35-52, whose `job` and `fleet` are those of `Model/Loader`. The file is
read when first needed; as nothing is written before, the model fixes its content here. A missing file raises when it is
read. -/
def newFileLoader (p : Text) (F : InputFormat) : Py Site (LoaderObj Site Item) := do
  Py.modify fun w => { w with data := ((w.file p).elim { content := .error .runtime } LoaderState.ofText, w.data.2) }
  pure {
    job := do
      let trips ← onLoader (loaderJob F.formatter)
      pure (.job F.metric F.objective trips)
    fleet := do
      let vehicles ← onLoader (loaderFleet F.formatter)
      pure (.fleet vehicles) }

/-- The class `FileLoader`, jinete/loaders/file.py:35-52 and abc.py:39-46: `file_path` is required, the default of
`formatter_cls` is `CordeauLaporteLoaderFormatter`, also for `None`. Arguments of other types end in a `TypeError`. -/
def fileLoader (euclid : Pos → Pos → ℚ) : Class Site Item (LoaderObj Site Item) := fun kwargs =>
  if callOK ["file_path"] ["formatter_cls"] kwargs then
    match kwargs.lookup "file_path", kwargs.lookup "formatter_cls" with
    | some (.path p), none | some (.path p), some (.arg .none) => newFileLoader p (cordeauInput euclid)
    | some (.path p), some (.input F) => newFileLoader p F
    | _, _ => Py.raise .typeError
  else Py.raise .typeError

/-- An algorithm class, jinete/algorithms/abc.py:36-46: constructed with `fleet` and `job`; `optimize` returns the routes of the
result. Its other settings are part of `optimize` here, not keyword arguments. -/
def algorithmClass (optimize : Problem → M (List Nat)) : Class Site Item (AlgorithmObj Site Item) := fun kwargs =>
  if callOK ["fleet", "job"] [] kwargs then
    match kwargs.lookup "fleet", kwargs.lookup "job" with
    | some (.fleet vehicles), some (.job metric objective trips) =>
      pure {
        optimize := do
          let routes ← onData (onObjects (optimize ⟨metric, objective, trips, vehicles⟩))
          pure (.result ⟨metric, objective, trips, vehicles⟩ routes) }
    | _, _ => Py.raise .typeError
  else Py.raise .typeError

/-- The class `FileStorer`, jinete/storers/file.py:15-29 and abc.py:38-53; `columnar` is the default formatter. -/
def fileStorer (columnar : OutputFormat) : Class Site Item (StorerObj Site) := fun kwargs => do
  fileStorerInit kwargs
  match kwargs.lookup "result", kwargs.lookup "file_path", kwargs.lookup "formatter_cls" with
  | some (.result P routes), some (.path p), none | some (.result P routes), some (.path p), some (.arg .none) =>
    pure ⟨fileStore p (onObjects (columnar P routes))⟩
  | some (.result P routes), some (.path p), some (.output f) => pure ⟨fileStore p (onObjects (f P routes))⟩
  | _, _, _ => Py.raise .typeError

/-- A `Solver` with `FileLoader` and `FileStorer`, jinete/solvers.py:45-91: reads the problem from `source` and writes the result
to `target`. -/
def fileSolver (euclid : Pos → Pos → ℚ) (columnar : OutputFormat) (source target : Text) (F : InputFormat) (f : OutputFormat)
    (optimize : Problem → M (List Nat)) : Solver Site Item where
  loader := fileLoader euclid
  loaderKwargs := [("file_path", .path source), ("formatter_cls", .input F)]
  algorithm := algorithmClass optimize
  algorithmKwargs := []
  storer := fileStorer columnar
  storerKwargs := [("file_path", .path target), ("formatter_cls", .output f)]
  dispatcherKwargs := []

end Jinete
