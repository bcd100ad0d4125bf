import Verif.Model.Defaults
import Verif.Model.MilpRoutes

/-!
# Programs: solvers with keyword arguments and sets of storers

jinete/solvers.py with algorithms that take keyword arguments (`Model/Options`) and jinete/storers/sets.py, as the programs in
examples/ put them together.
-/

set_option autoImplicit false

namespace Jinete

/-! ## Algorithms -/

/-- The keyword arguments of an algorithm for a problem: `fleet` and `job` refer to it by number. Items that are no arguments of
algorithms count as `None`. -/
def optionsFor (P : Problem) (kwargs : Kwargs Item) : Options := fun x =>
  (kwargs.lookup x).map fun
    | .fleet _ => .fleet P.fleet
    | .job _ _ _ => .job P.job
    | .arg a => a
    | _ => .none

/-- An algorithm class with keyword arguments, jinete/algorithms/abc.py:39-73. Constructor and `optimize` are run one after the other
(jinete/dispatchers/static.py:27-29), so that the model leaves all work to the latter; only `fleet` and `job` are looked at first. -/
def algorithmNamed (C : Chance) (depth : Nat) (c : ClassName) : Class Site Item (AlgorithmObj Site Item) := fun kwargs =>
  match kwargs.lookup "fleet", kwargs.lookup "job" with
  | some (.fleet vehicles), some (.job metric objective trips) =>
    let P : Problem := ⟨metric, objective, trips, vehicles⟩
    pure {
      optimize := do
        let routes ← onData (onObjects (runClass P.env P.objective C depth c (optionsFor P kwargs)))
        pure (.result P routes) }
  | _, _ => Py.raise .typeError

/-! ## Storers -/

/-- What `GraphPlotStorer` draws of a result, jinete/storers/plots/graph.py:72-101 with `Storer._trips` and `Storer._routes`
(jinete/storers/abc.py:55-61): all trips of the job, the routes of the planning. -/
def plotOutput (P : Problem) (rs : List Nat) : M Plot := fun h => (graphPlot P.env P.ident h.core rs P.job, h)

/-- The class `GraphPlotStorer`, jinete/storers/plots/graph.py:29-40. -/
def graphStorer (image : List Plot → Text) : Class Site Item (StorerObj Site) := fun kwargs => do
  graphStorerInit kwargs
  match kwargs.lookup "result", kwargs.lookup "file_path" with
  | some (.result P routes), none | some (.result P routes), some (.arg .none) =>
    pure ⟨graphStore image none (onObjects (plotOutput P routes))⟩
  | some (.result P routes), some (.path p) => pure ⟨graphStore image (some p) (onObjects (plotOutput P routes))⟩
  | _, _ => Py.raise .typeError

/-- `functools.partial(cls, name=value)`: the value is used unless the call gives another. -/
def bound {O : Type} (cls : Class Site Item O) (name : String) (value : Item) : Class Site Item O := fun kwargs =>
  cls (if name ∈ kwargs.map Prod.fst then kwargs else (name, value) :: kwargs)

/-- The classes by name. -/
def storerNamed (columnar : OutputFormat) (image : List Plot → Text) : StorerName → Class Site Item (StorerObj Site)
  | .naive => fun kwargs => do
    storerInit kwargs
    pure ⟨naiveStore⟩
  | .prompt => promptStorer columnar
  | .file none => fileStorer columnar
  | .file (some p) => bound (fileStorer columnar) "file_path" (.path p)
  | .graph none => graphStorer image
  | .graph (some p) => bound (graphStorer image) "file_path" (.path p)

/-- The class `StorerSet`, jinete/storers/sets.py:25-50. The list gives the set in iteration order. -/
def storerSet (columnar : OutputFormat) (image : List Plot → Text) : Class Site Item (StorerObj Site) := fun kwargs => do
  let rest ← storerSetInit kwargs
  match kwargs.lookup "storer_cls_set" with
  | some (.storers l) => pure ⟨storerSetStore (l.map (storerNamed columnar image)) rest⟩
  | _ => Py.raise .typeError

/-! ## The programs -/

/-- What a program does not say: distances, the text of reports, images, chance, and how deep algorithms may be nested. -/
structure Setup where
  euclid : Pos → Pos → ℚ
  columnar : OutputFormat
  image : List Plot → Text
  chance : Chance
  depth : Nat

/-- A program that solves a Cordeau-Laporte file and stores the result in several ways, as in examples/cordeau. -/
def solverOf (U : Setup) (source : Text) (algorithm : Class Site Item (AlgorithmObj Site Item)) (kwargs : Kwargs Item) (storers : List StorerName) :
    Solver Site Item where
  loader := fileLoader U.euclid
  loaderKwargs := [("file_path", .path source)]
  algorithm := algorithm
  algorithmKwargs := kwargs
  storer := storerSet U.columnar U.image
  storerKwargs := [("storer_cls_set", .storers storers)]
  dispatcherKwargs := []

/-- Such a program with one of the heuristics. -/
def cordeauProgram (U : Setup) (source : Text) (c : ClassName) (kwargs : Kwargs Item) (storers : List StorerName) : Solver Site Item :=
  solverOf U source (algorithmNamed U.chance U.depth c) kwargs storers

/-- examples/cordeau/example_insertion.py:22-31. -/
def insertionProgram (U : Setup) (source : Text) (storers : List StorerName) : Solver Site Item :=
  cordeauProgram U source .insertion [("strategy_cls", .arg (.cls .intensive))] storers

/-- The solver of examples/cordeau/example_grasp.py:22-31 and examples/cordeau/benchmark_solve.py:19-33, but for the storers. -/
def graspProgram (U : Setup) (source : Text) (storers : List StorerName) : Solver Site Item :=
  cordeauProgram U source .grasp
    [("first_solution_kwargs", .arg (.options (Options.of [("episodes", .int 1), ("randomized_size", .int 2)]))), ("episodes", .arg (.int 5))] storers

/-- examples/cordeau/example_two_opt.py:22-34. -/
def twoOptProgram (U : Setup) (source : Text) (storers : List StorerName) : Solver Site Item :=
  cordeauProgram U source .grasp
    [("first_solution_kwargs", .arg (.options (Options.of [("episodes", .int 1), ("strategy_cls", .cls .intensive)]))),
     ("local_search_kwargs", .arg (.options (Options.of [("strategy_cls", .cls .twoOpt)])))] storers

/-- The set of storers of examples/cordeau/example_insertion.py:29, example_grasp.py:29 and example_two_opt.py:32. -/
def exampleStorers : List StorerName := [.prompt, .graph none]

/-- The storers of examples/cordeau/benchmark_solve.py:25-31: the image and the report are put beside the instance.
`file_path.parent / f"{file_path.name}.png"` is the path with `.png` appended. -/
def benchmarkStorers (source : Text) : List StorerName :=
  [.prompt, .graph (some (source ++ ".png".toList)), .file (some (source ++ ".output".toList))]

/-- What is not in the code of `MilpAlgorithm`: the order in which the sets of vehicles and trips are iterated, and the assignment which the
linear programming library and its solver store in the variables for a model. -/
structure MilpChoices where
  vehicles : List Nat → List Nat
  trips : List Nat → List Nat
  answer : Milp → Assignment

/-- The assignment stored for a problem. -/
def MilpChoices.assignment (A : MilpChoices) (P : Problem) : Assignment :=
  A.answer (milpOf P.env (A.vehicles P.fleet) (A.trips P.job))

/-- `MilpAlgorithm.optimize`, jinete/algorithms/abc.py:54-73 with jinete/algorithms/exacts/milp.py:49-57. -/
def milpRun (A : MilpChoices) (P : Problem) : M (List Nat) :=
  logged (logResult P.env P.objective) (milpOptimize P.env (A.vehicles P.fleet) (A.trips P.job) (A.assignment P))

/-- The class `MilpAlgorithm`, jinete/algorithms/exacts/milp.py:31-47, with the default of `model_cls`. Any other keyword argument is accepted
(`**kwargs` of `Algorithm`, `ThreeIndexLinearModel` and `LinearModel`); `solver` only has influence on the answer, which is part of
`MilpChoices`. -/
def milpAlgorithm (A : MilpChoices) : Class Site Item (AlgorithmObj Site Item) := fun kwargs =>
  match kwargs.lookup "fleet", kwargs.lookup "job" with
  | some (.fleet vehicles), some (.job metric objective trips) =>
    let P : Problem := ⟨metric, objective, trips, vehicles⟩
    pure {
      optimize := do
        let routes ← onData (onObjects (milpRun A P))
        pure (.result P routes) }
  | _, _ => Py.raise .typeError

/-- examples/cordeau/example_milp_three_index.py:27-39. The solver of the linear programming library stands in the arguments as `None`. -/
def milpProgram (U : Setup) (A : MilpChoices) (source : Text) (storers : List StorerName) : Solver Site Item :=
  solverOf U source (milpAlgorithm A) [("solver", .arg .none)] storers

/-- examples/hashcode/example_insertion.py:30-37: the default storer prints the columnar report. -/
def hashcodeProgram (U : Setup) (source : Text) : Solver Site Item where
  loader := fileLoader U.euclid
  loaderKwargs := [("file_path", .path source), ("formatter_cls", .input hashcodeInput)]
  algorithm := algorithmNamed U.chance U.depth .insertion
  algorithmKwargs := [("criterion", .arg (.cls (.criterion .hashCode))), ("neighborhood_max_size", .arg .none)]
  storer := promptStorer U.columnar
  storerKwargs := []
  dispatcherKwargs := []

end Jinete
