import Verif.Model.Algorithms

/-!
# Keyword arguments of the algorithms

How the constructors of the algorithms (jinete/algorithms/abc.py, heuristics/insertion/algorithm.py,
heuristics/local_search/algorithm.py, metaheuristics/{iterative,sequential,grasp}.py) and of the iterators and strategies
they build (heuristics/insertion/iterators/{abc,ranking}.py, strategies/{abc,sampling}.py, models/criterions.py) take their
keyword arguments and pass on the rest. All calls are made with keyword arguments only, as in
`Solver(algorithm=..., algorithm_kwargs=...)`; the names `self` and `cls` are not given. Objects are built and run at once
(`cls(**kwargs).optimize()`), so a class is modelled by what that expression does.

Numbers are integers. Where a value has the wrong type the model raises at the constructor what Python raises when the value is
used. Iterators other than `RankingInsertionIterator` and algorithms other than the five above are arbitrary computations.
-/

set_option autoImplicit false

namespace Jinete

/-- The classes that keyword arguments name: algorithms, iterators, insertion strategies, local search strategies and
criteria. -/
inductive ClassName
  | insertion | localSearch | sequential | iterative | grasp | otherAlgorithm (n : Nat)
  | ranking | otherIterator (n : Nat)
  | baseStrategy | intensive | tail | sampling
  | reallocation | twoOpt | oneShift
  | criterion (k : Criterion)
  deriving DecidableEq

/-- `issubclass(cls, Algorithm)`. -/
def ClassName.isAlgorithm : ClassName → Bool
  | .insertion | .localSearch | .sequential | .iterative | .grasp | .otherAlgorithm _ => true
  | _ => false

/-- Values of keyword arguments. Dictionaries are partial functions: `options` for `first_solution_kwargs` and
`local_search_kwargs`, `stages` for `algorithms_cls`. -/
inductive Arg
  | none
  | int (n : Int)
  | bool (b : Bool)
  | cls (c : ClassName)
  | fleet (vehicles : List Nat)
  | job (trips : List Nat)
  | result (routes : List Nat)
  | routes (routes : List Nat)
  | options (o : String → Option Arg)
  | stages (l : List (ClassName × (String → Option Arg)))

/-- Keyword arguments. -/
abbrev Options := String → Option Arg

/-- No keyword arguments. -/
def Options.none : Options := fun _ => Option.none

/-- Keyword arguments as written in a call. -/
def Options.of (l : List (String × Arg)) : Options := fun x => l.lookup x

/-- What is left for `**kwargs` when the given names are parameters. -/
def Options.without (o : Options) (names : List String) : Options := fun x => if x ∈ names then Option.none else o x

/-- `kwargs[name] = value`. -/
def Options.set (o : Options) (name : String) (value : Arg) : Options := fun x => if x = name then some value else o x

/-- `if name not in kwargs: kwargs[name] = value`. -/
def Options.setDefault (o : Options) (name : String) (value : Arg) : Options := fun x =>
  if x = name then some ((o name).getD value) else o x

/-- The truth value of an argument. -/
def Arg.truthy : Arg → Bool
  | .none => false
  | .int n => decide (n ≠ 0)
  | .bool b => b
  | _ => true

/-- An integer, as `range` and `<` take it; what is below zero acts as zero there. -/
def Arg.nat : Arg → M Nat
  | .int n => pure n.toNat
  | .bool b => pure b.toNat
  | _ => Py.raise .typeError

/-- A class, with a default for a missing argument and for `None`; calling something else is a `TypeError`. -/
def classOr (default : ClassName) : Option Arg → M ClassName
  | Option.none | some .none => pure default
  | some (.cls c) => pure c
  | _ => Py.raise .typeError

/-- The argument `initial`: a result or `None`. -/
def initialOf : Option Arg → M (Option (List Nat))
  | Option.none | some .none => pure Option.none
  | some (.result rs) => pure (some rs)
  | _ => Py.raise .attributeError

/-- A result or `None` as an argument. -/
def Arg.ofResult : Option (List Nat) → Arg
  | Option.none => .none
  | some rs => .result rs

/-- The argument for a dictionary, by default empty; `.copy()` of something else is an `AttributeError`. -/
def optionsOr : Option Arg → M Options
  | Option.none | some .none => pure Options.none
  | some (.options o) => pure o
  | _ => Py.raise .attributeError

/-- `Algorithm.__init__`, jinete/algorithms/abc.py:39-48: `fleet` and `job` are required. -/
def algorithmInit (o : Options) : M Unit :=
  match o "fleet", o "job" with
  | some (.fleet _), some (.job _) => pure ()
  | _, _ => Py.raise .typeError

/-- What is not determined by the arguments: the order in which sets are iterated, what `Random(seed)` draws for each seed, the
samples of the local search, how long loops may run, and all that is not modelled. -/
structure Chance where
  order : Heap → Nat → List Nat → List Nat
  /-- `Random(seed).choice` -/
  choice : Arg → Heap → Nat → Nat → Nat
  /-- what the sampling strategy draws from `Random(seed)` -/
  stream : Arg → Heap → Nat → Nat → Nat → Nat → Nat
  /-- the numbers that `Random(seed).randint(0, MAX_INT)` draws one after the other -/
  randint : Arg → Nat → Nat
  draws : Heap → Draws
  samples : Nat
  fuel : Nat
  otherIterator : Nat → Options → M (List Nat)
  otherAlgorithm : Nat → Options → M (List Nat)

variable (E : Env) (k : Objective) (C : Chance)

/-! ## The insertion algorithm -/

/-- `strategy_cls(**rest)` and the first use of it, iterators/abc.py:114-116 with strategies/abc.py:32-33 and sampling.py:35-37.
The base class compares its missing indices (`TypeError`); a local search strategy requires a `result`, and has no method
`compute` (strategies/abc.py:22-26 of the local search); neither has a criterion. -/
def strategyOf (h : Heap) (rest : Options) : ClassName → Except Err Strategy
  | .intensive => .ok .intensive
  | .tail => .ok .tail
  | .sampling => .ok (.sampling 128 C.samples (C.stream ((rest "seed").getD (.int 56)) h))
  | .reallocation | .twoOpt | .oneShift => if (rest "result").isSome then .error .attributeError else .error .typeError
  | .criterion _ => .error .attributeError
  | _ => .error .typeError

/-- `criterion_cls(**rest)`, iterators/abc.py:118-120 with models/criterions.py:35-37 and 53-57: further arguments are ignored,
but for the two which the subclasses fix themselves. -/
def criterionOf (rest : Options) : Option Arg → Except Err Criterion
  | Option.none | some .none =>
    if (rest "name").isSome || (rest "direction").isSome then .error .typeError else .ok .earliestLastDeparture
  | some (.cls (.criterion c)) => if (rest "name").isSome || (rest "direction").isSome then .error .typeError else .ok c
  | _ => .error .typeError

/-- `neighborhood_max_size`, iterators/ranking.py:31-37; `islice` raises `ValueError` for a number below zero. -/
def neighborhoodOf : Option Arg → Except Err (Option Nat)
  | Option.none => .ok (some 24)
  | some .none => .ok Option.none
  | some (.int n) => if n < 0 then .error .valueError else .ok (some n.toNat)
  | some (.bool b) => .ok (some b.toNat)
  | _ => .error .typeError

/-- `randomized_size`, iterators/ranking.py:31 and 39. -/
def randomizedOf : Option Arg → Except Err Nat
  | Option.none => .ok 1
  | some (.int n) => .ok n.toNat
  | some (.bool b) => .ok b.toNat
  | _ => .error .typeError

/-- What is left for the strategy and the criterion: `**kwargs` of `RankingInsertionIterator.__init__` (iterators/ranking.py:31)
and of `InsertionIterator.__init__` (iterators/abc.py:50-59). -/
def iteratorRest (o : Options) : Options :=
  (o.without ["neighborhood_max_size", "randomized_size", "seed"]).without ["fleet", "job", "strategy_cls", "criterion_cls", "routes"]

/-- The strategy asked for, by default sampling, iterators/abc.py:60-63 and 114-116. -/
def chosenStrategy (h : Heap) (rest : Options) : Option Arg → Except Err Strategy
  | Option.none | some .none => strategyOf C h rest .sampling
  | some (.cls c) => strategyOf C h rest c
  | _ => .error .typeError

/-- The settings of `RankingInsertionIterator(**o)`, iterators/ranking.py:31-43 and iterators/abc.py:50-87. The strategy and the
criterion are built when first used, which is in the constructor if there is a route. -/
def rankingSettings (o : Options) (h : Heap) : Except Err Settings :=
  match o "fleet", o "job" with
  | some (.fleet vehicles), some (.job trips) =>
    match chosenStrategy C h (iteratorRest o) (o "strategy_cls"), criterionOf (iteratorRest o) (o "criterion_cls"),
      neighborhoodOf (o "neighborhood_max_size"), randomizedOf (o "randomized_size") with
    | .ok strategy, .ok criterion, .ok neighborhood, .ok randomized =>
      .ok { env := E, fleet := vehicles, job := trips, criterion, strategy,
            onlyFeasible := ((iteratorRest o "only_feasible").getD (.bool true)).truthy, neighborhood, randomized,
            order := C.order h, choice := C.choice ((o "seed").getD (.int 56)) h }
    | .error e, _, _, _ => .error e
    | _, .error e, _, _ => .error e
    | _, _, .error e, _ => .error e
    | _, _, _, .error e => .error e
  | _, _ => .error .typeError

/-- There is no route to extend: the routes given, or else the fleet, are empty. -/
def withoutRoutes (o : Options) : Bool :=
  match o "routes", o "fleet" with
  | some (.routes rs), _ => rs.isEmpty
  | Option.none, some (.fleet vehicles) | some .none, some (.fleet vehicles) => vehicles.isEmpty
  | _, _ => false

/-- `RankingInsertionIterator(**o)` and the loop of `InsertionAlgorithm._optimize`, algorithm.py:43-52. Without routes neither
the strategy nor the criterion is built, so wrong ones do not matter, and the planning has no routes either. -/
def rankingRun (o : Options) : M (List Nat) := fun h =>
  match rankingSettings E C o h, o "routes" with
  | .ok S, Option.none | .ok S, some .none => insertionPlanning S Option.none C.fuel h
  | .ok S, some (.routes rs) => insertionPlanning S (some rs) C.fuel h
  | .ok _, _ => (.error .typeError, h)
  | .error e, _ => if withoutRoutes o then (.ok [], h) else (.error e, h)

/-- The arguments `InsertionAlgorithm` passes to its iterator, algorithm.py:28-41. -/
def iteratorOptions (o : Options) (initial : Option (List Nat)) : Options :=
  let rest := o.without ["iterator_cls", "initial"]
  match initial with
  | some rs => if (rest "routes").isSome then rest else rest.set "routes" (.routes rs)
  | Option.none => rest

/-- `InsertionAlgorithm(**o).optimize()`, algorithm.py:28-52 and jinete/algorithms/abc.py:54-73. -/
def insertionClass (o : Options) : M (List Nat) := do
  algorithmInit (o.without ["iterator_cls", "initial"])
  let initial ← initialOf (o "initial")
  let it ← classOr .ranking (o "iterator_cls")
  logged (logResult E k) (match it with
    | .ranking => rankingRun E C (iteratorOptions o initial)
    | .otherIterator n => C.otherIterator n (iteratorOptions o initial)
    | _ => Py.raise .typeError)

/-! ## Local search -/

/-- `strategy_cls(best).improve()`, heuristics/local_search/algorithm.py:65. Insertion strategies take the result for
`only_feasible` and have no method `improve`. -/
def searchPass (c : ClassName) (rs : List Nat) : M (List Nat) := fun h =>
  match c with
  | .reallocation => reallocationPass E k C.draws rs h
  | .twoOpt => improveWith E (C.draws h).order (twoOpt E k) rs h
  | .oneShift => improveWith E (C.draws h).order (oneShift E k) rs h
  | .baseStrategy | .intensive | .tail | .sampling => (.error .attributeError, h)
  | _ => (.error .typeError, h)

/-- The exception of a pass with a class that is no local search strategy. -/
def isSearch : ClassName → M Unit
  | .reallocation | .twoOpt | .oneShift => pure ()
  | .baseStrategy | .intensive | .tail | .sampling => Py.raise .attributeError
  | _ => Py.raise .typeError

/-- `LocalSearchAlgorithm(**o).optimize()`, heuristics/local_search/algorithm.py:31-73: `initial` is required. For a result
without routes see `localSearchOptimize`. -/
def localSearchClass (o : Options) : M (List Nat) := do
  if (o "initial").isNone then Py.raise .typeError
  else do
    algorithmInit (o.without ["initial", "no_improvement_threshold", "strategy_cls"])
    let initial ← initialOf (o "initial")
    let c ← classOr .reallocation (o "strategy_cls")
    let threshold ← ((o "no_improvement_threshold").getD (.int 1)).nat
    match initial with
    | Option.none => if 0 < threshold then Py.raise .attributeError else Py.raise .assertion
    | some [] => do
      if 0 < threshold then isSearch c else pure ()
      Py.raise .typeError
    | some (r :: rs) => logged (logResult E k) (localSearch (searchPass E k C c) (resultValue E k) threshold C.fuel (r :: rs) 0)

/-! ## The algorithms made of others; `run` is `cls(**kwargs).optimize()` -/

/-- The arguments of an episode, metaheuristics/iterative.py:70-84: those of the iterative algorithm, a seed, and `initial` if a
result is passed on. -/
def episodeOptions (rest : Options) (seed : Nat) : Option (List Nat) → Options
  | Option.none => rest.set "seed" (.int seed)
  | some rs => (rest.set "seed" (.int seed)).set "initial" (.result rs)

/-- `IterativeAlgorithm(**o).optimize()`, metaheuristics/iterative.py:43-88. -/
def iterativeClass (run : ClassName → Options → M (List Nat)) (o : Options) : M (List Nat) := do
  let rest := o.without ["episodes", "algorithm_cls", "seed", "restart_mode"]
  algorithmInit rest
  let c ← classOr .insertion (o "algorithm_cls")
  let episodes ← ((o "episodes").getD (.int 3)).nat
  logged (logResult E k) (iterative
    (fun seed best => run c (episodeOptions rest seed best))
    (resultValue E k) ((o "restart_mode").getD (.bool true)).truthy (C.randint ((o "seed").getD (.int 56))) episodes)

/-- The stages of a sequential algorithm, metaheuristics/sequential.py:78-92; a stage without seed draws the next number. An
argument `initial` of a stage would be given twice. -/
def stageRuns (run : ClassName → Options → M (List Nat)) (seed : Arg) (o : Options) :
    Nat → List (ClassName × Options) → List (Option (List Nat) → M (List Nat))
  | _, [] => []
  | i, (c, kw) :: l =>
    (fun current =>
      if (kw "initial").isSome then Py.raise .typeError
      else if !c.isAlgorithm then Py.raise .assertion
      else run c ((((kw.setDefault "fleet" ((o "fleet").getD .none)).setDefault "job" ((o "job").getD .none)).setDefault "seed"
        (.int (C.randint seed i))).set "initial" (.ofResult current))) ::
    stageRuns run seed o (if (kw "seed").isSome then i else i + 1) l

/-- `SequentialAlgorithm(**o).optimize()`, metaheuristics/sequential.py:44-93. By default the stages are local search with
reallocation and insertion, both with all further arguments; `strategy_cls` is replaced for the first. -/
def sequentialClass (run : ClassName → Options → M (List Nat)) (o : Options) : M (List Nat) := do
  let rest := o.without ["initial", "algorithms_cls", "seed"]
  algorithmInit rest
  let initial ← initialOf (o "initial")
  let seed := (o "seed").getD (.int 56)
  match o "algorithms_cls" with
  | Option.none | some .none =>
    logged (logResult E k) (sequential (stageRuns C run seed o 0
      [(.localSearch, rest.set "strategy_cls" (.cls .reallocation)), (.insertion, rest)]) initial)
  | some (.stages l) => logged (logResult E k) (sequential (stageRuns C run seed o 0 l) initial)
  | _ => Py.raise .typeError

/-- The arguments of the first solution of GRASP, metaheuristics/grasp.py:79-85. -/
def firstOptions (first o : Options) : Options :=
  (first.setDefault "fleet" ((o "fleet").getD .none)).setDefault "job" ((o "job").getD .none)

/-- The arguments of its local search, metaheuristics/grasp.py:87-96. -/
def searchOptions (search o : Options) : Options :=
  ((((search.setDefault "fleet" ((o "fleet").getD .none)).setDefault "job" ((o "job").getD .none)).set "algorithm_cls"
    (.cls .sequential)).set "restart_mode" (.bool false)).set "episodes" (.int 3)

/-- `GraspAlgorithm(**o).optimize()`, metaheuristics/grasp.py:47-106: `algorithm_cls` and `algorithms_cls` would be given twice. -/
def graspClass (run : ClassName → Options → M (List Nat)) (o : Options) : M (List Nat) := do
  let rest := o.without ["no_improvement_threshold", "first_solution_kwargs", "local_search_kwargs", "seed"]
  algorithmInit rest
  let first ← optionsOr (o "first_solution_kwargs")
  let search ← optionsOr (o "local_search_kwargs")
  if (rest "algorithm_cls").isSome || (rest "algorithms_cls").isSome then Py.raise .typeError
  else logged (logResult E k) (run .iterative ((rest.set "algorithm_cls" (.cls .sequential)).set "algorithms_cls"
    (.stages [(.iterative, firstOptions first o), (.iterative, searchOptions search o)])))

/-- `cls(**o).optimize()` for an algorithm class, where algorithms may be nested up to the given depth. Other classes have no
method `optimize`. -/
def runClass : Nat → ClassName → Options → M (List Nat)
  | 0, _, _ => Py.raise .outOfFuel
  | _ + 1, .insertion, o => insertionClass E k C o
  | _ + 1, .localSearch, o => localSearchClass E k C o
  | n + 1, .sequential, o => sequentialClass E k C (runClass n) o
  | n + 1, .iterative, o => iterativeClass E k C (runClass n) o
  | n + 1, .grasp, o => graspClass E k (runClass n) o
  | _ + 1, .otherAlgorithm i, o => C.otherAlgorithm i o
  | _ + 1, _, _ => Py.raise .attributeError

end Jinete
