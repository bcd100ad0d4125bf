# Formal model of jinete: design

## 1. What is being verified

`/repo` is a dial-a-ride solver.  It has an object graph (`Route` -> `Stop` -> `PlannedTrip`) with
back pointers and memoised properties (`cached_property`), heuristics that clone and edit that graph,
local search, meta-heuristics, a MILP formulation, loaders and storers.  The properties are in
`properties.jsonl`; this file says how each one is modelled and proved.

## 2. Shape of the model

* `lean/Verif/Model/*`  executable Lean definitions, one per function of the code, each with a comment
  citing file and lines.
* `lean/Verif/Spec/*`   small, independent specifications (list based, no pointers, no caches).
* `lean/Verif/Proofs/*` helper lemmas.
* `lean/Verif/Props/*`  the property theorems listed in `MANIFEST.json`, each followed by an `example`
  that meets its hypotheses with concrete data.

### Effects
Python methods that read or write objects are modelled in a state-and-exception monad
`Py σ α := σ → Except Err α × σ`.  The state survives an exception, as in Python.  `Err` has one
constructor per Python exception class that the code can raise (`AssertionError`, `IndexError`, ...).

### Objects
Objects live in a `Heap`: stops, planned trips and routes are numbered, a number is the object identity
(`Model` defines no `__eq__`, so `==` is identity).  The heap has a *core* (the real attributes) and one
partial map per `cached_property` (`arrival_time`, `departure_time`, `capacity`, the three `feasible`).
A cached property is modelled literally: return the cached value if present, otherwise compute and store.
`flush` removes exactly the keys it removes in the code.  Trips and vehicles are immutable and live in an
environment `Env`.

### Numbers
Times, distances and capacities are exact rationals `ℚ`.  `MAX_FLOAT = inf` is kept as a separate
constructor for upper bounds and timeouts (`Bound.inf`).  NaN and infinite service times are not modelled.
Floating point rounding is modelled in `Model/Rounded`, `Model/Euclidean`, `Model/RoundedValue` and `Model/RoundedRide` only: the getters behind `Route.feasible` once more,
with a rounding after every operation (C116 to C118 relate them to the exact ones).  `ERROR_BOUND = 10e-4` is the rational 1/1000.

### Sets and randomness
A Python set is a duplicate-free list; theorems quantify over the list, hence over every iteration order.
Random draws are arguments (an arbitrary stream); theorems quantify over the stream.

### Recursion
`departure_time`, `capacity` and `all_previous` recurse along `previous`.  The model recurses with fuel
(number of allocated stops + 1); running out of fuel is `RecursionError` (a cyclic `previous` chain).
The interpreter's own recursion limit (about 1000 frames) is modelled in `Model/Depth` only, as a limit on the nesting of `departure_time`.

## 3. Trusted base

* Lean's kernel (4.33.0) and Mathlib as installed; axioms used: at most `propext`, `Classical.choice`,
  `Quot.sound`.  No axioms are added, no `sorry`, no `native_decide`, no `bv_decide`.
* The hand translation Python -> Lean in `Verif/Model`.  The code was not run.
* Python built-ins are taken at their documented meaning: `max`/`min` return the first extremum,
  `sorted` is stable, `heapq.nlargest(n, it, key)` = `sorted(it, key=key, reverse=True)[:n]`,
  `itertools.combinations`, `functools.reduce`, `cached_property`, list slicing, `zip` truncation,
  `functools.partial`.
* Plotting libraries likewise: networkx keeps one edge per ordered pair of nodes and draws on the current
  pyplot figure; `savefig` keeps that figure, `show` ends it.

### Coverage by file (paths below `jinete/`)

| code | model | left out |
|---|---|---|
| `models/constants.py`, `models/criterions.py` | `Model/Direction`, `Model/Criterion` | caching of the direction object |
| `models/positions.py`, `models/surfaces.py` | `Model/Surface` | coordinates other than rationals |
| `models/services.py`, `models/trips.py`, `models/vehicles.py`, `models/jobs.py` | `Model/Trip` | identifiers, textual forms, job and fleet wrappers (lists of indices) |
| `models/stops.py`, `models/planned_trips.py`, `models/routes.py` | `Model/Heap`, `Model/Stop`, `Model/Route`, `Model/Cloner`, `Model/Getters` | `as_tuple` dumps |
| `models/objectives.py`, `models/plannings.py`, `models/results.py` | `Model/Objective`, `Model/Planning` | computation time, direction setter |
| `algorithms/*`, keyword arguments of the constructors | `Model/Options` (insertion with the ranking iterator, local search, sequential, iterative, GRASP) | numbers other than integers; other iterators and algorithms are arbitrary computations; values of a wrong type are rejected when an object is built instead of when it is used |
| `algorithms/abc.py` | `optimizeWith` in `Model/Objective`; `logged` in `Model/Search` (what is evaluated for the log) | text of the log, timing |
| `algorithms/heuristics/insertion/strategies/*` | `Model/Strategy` | |
| `algorithms/heuristics/insertion/iterators/*`, `insertion/algorithm.py` | `Model/Iterator` | weak caching of constructor arguments |
| `algorithms/heuristics/local_search/algorithm.py`, `metaheuristics/*` | `Model/Search` over arbitrary inner algorithms; `Model/Algorithms`: local search, default stages and GRASP on the heap | the text that is logged |
| `algorithms/heuristics/local_search/strategies/*` | `Model/LocalSearch`, `Model/Copy` (deep copies) | |
| `algorithms/exacts/models/three_index.py`, `algorithms/exacts/milp.py` | `Model/Milp` (variables, constraints, objective, validation, decoding to trips), `Model/MilpRoutes` (stops, planned trips, waiting times, routes) | solver call |
| `loaders/*` | `Model/File` (text to rows of numbers), `Model/Loader` | opening the file, its encoding; `inf`, `nan` and digits outside ASCII |
| `storers/*` | `Model/Storer`, `Model/Columnar`, `Model/Text`, `Model/Dispatch`; `Model/Plot`: nodes, labels, edges and colours of plots | layout, fonts and pixels: an image is an arbitrary function of the plots on the figure |
| `dispatchers/*`, `solvers.py` | `Model/Dispatch` over arbitrary components; `Model/Solve`: with the file loader, an algorithm on the heap and the file storer; `Model/Defaults`: with the default classes | `algorithm_kwargs` are part of the algorithm here; see `Model/Options` and `Model/Programs` |
| `examples/cordeau/{example_insertion,example_grasp,example_two_opt,example_milp_three_index,benchmark_solve}.py`, `examples/hashcode/example_insertion.py`, `examples/read_dataset.py`, `examples/cordeau/benchmark_launch.py` | `Model/Programs`: solvers with keyword arguments and sets of storers; `Model/Show`; `Model/Launch` for `benchmark_launch.py` | the paths of the instances are arbitrary; what a solver of linear models answers is a parameter (`MilpChoices`); the processes started by the launcher are arbitrary |
| `utils/*` | `Model/Utils` | |

`__repr__` and `__iter__` of the model classes are in `Model/Show`, with the one message (objectives.py:74) whose text can raise.
`__eq__` and `__hash__` of services and positions are in `Model/Hash`; elsewhere objects are compared by identity (routes, stops, planned trips) or by number (trips, vehicles).

Not modelled: where log messages go and the text of the others, the drawing of
plots as images, the PuLP solver (a solver answer is an arbitrary assignment), wall-clock timing, process environment (but for `Model/Launch`), floating point (but for the verdicts of routes, Euclidean distances and values of plannings, `Model/Rounded`, `Model/Euclidean`, `Model/RoundedValue` and `Model/RoundedRide`; without overflow, underflow and NaN), failures to open an
input or output file.

## 4. Properties

Status column: P = expected provable for the code; N = the property as stated is false of the code, so
the negation is proved with a concrete witness and the strongest true part is proved as `..._partial`.

| id | model | method | status |
|---|---|---|---|
| C01 | `GeometricSurface` cache as association map | invariant over query histories | P |
| C02 | both metrics, over ℚ (Manhattan) and ℝ (Euclidean) | induction on coordinates; Minkowski from Mathlib | P |
| C03 | position set | induction on request list | P |
| C04 | `Trip` effective windows with `Bound` | case analysis | P |
| C05 | same | counterexample (destination loading time used on the origin side); lossless under an explicit inequality | N |
| C06 | heap getters | chain induction, cache coherence invariant | P |
| C07 | same | list induction on the schedule | P |
| C08 | `capacity` getter | load telescopes over prefix; nonneg from pairing | P |
| C09 | setter + flush | own start proved; later stops stale: witness; after explicit flush proved | N |
| C10 | `insert_stop`, `insert_stop_at` | list/pointer splice lemma | P |
| C11 | returned value | witness; true when inserted last-but-... never; characterise the value | N |
| C12 | `append_planned_trip` | composition of C10, C06, C07 | P |
| C13 | `remove_trip` | composition; links and schedule equal | P |
| C14 | `remove_stop_at` | interior indices proved; index 0 and last: witnesses | N |
| C15 | `RouteCloner` | loop invariant, isomorphism of visits | P |
| C16 | `RouteCloner` | loop invariant (mismatch set), frame | P |
| C17 | clone + later edit | idx 0 proved; shared prefix: witness | N |
| C18 | the three `feasible` getters | equivalence with list specification | P |
| C19 | `flush` | witness; holds when no stop verdict was cached | N |
| C20 | `Route.feasible` | witness (`origin_latest` is never read) | N |
| C21 | `InsertionStrategy.compute` | composition; no exception | P |
| C22 | index pairs | bijection with placements | P |
| C23 | `_improve_ride_times` | witness (stale `Stop.feasible`); all constraints proved, `latest` only for the schedule without requested starts (`Core.asap`) | N |
| C24 | `compute` frame | witness (shared depot stop); everything but the depot departure proved | N |
| C25 | `sample_index_pairs` with a random stream | loop invariant; it ends iff enough different pairs are drawn | P |
| C26 | `ncr` | `Nat.descFactorial` / factorial | P |
| C27 | `remove_duplicates` | list induction | P |
| C28-C29 | ranking iterator + algorithm loop (`Model/Iterator`) | state invariant over runs, variant | P |
| C30-C31 | `__next__` selection | loop invariant; n best: witness | P / N |
| C32-C33 | stateless iterators | witnesses | N |
| C34 | neighbourhood cap, one empty vehicle | witness; tried placements without cap | N |
| C35-C38 | objectives and criteria over arbitrary scores | list lemmas | P |
| C39 | local search loop | loop invariant | P |
| C40 | reallocation pass (`Model/LocalSearch`) | witness (two trips at a stop); best move so far as loop invariant, one trip per stop | N |
| C41 | two-opt pass (`Model/LocalSearch`) | witness (two improvements of one route); reorderings by vehicle | N |
| C42 | two-opt candidate | clone, remove, reinsert as one reversal of the itinerary | P |
| C43 | one-shift pass | witness (verdict of the first flip reused); what an accepted flip has | N |
| C44 | one-shift flip | witness (stale times); flip as an involution on attributes | N |
| C45-C46 | meta-heuristic loops over abstract inner algorithms | fold lemmas | P |
| C47 | coverage rate | arithmetic | P |
| C48 | `Planning.feasible` and `optimize` | empty planning witness; proved for non-empty plannings | N |
| C49, C51 | loaders (`Model/Loader`) over rows of numbers | index arithmetic, positions added to the surface | P |
| C50, C52 | same | witnesses (depot window dropped; latest finish put on the pickup) | N |
| C53 | HashCode storer formatter over characters (`Model/Storer`, `Model/Text`) | independent reader; round trip | P |
| C54 | `FileStorer.store` on a map from paths to texts | witness (truncated before formatting) | N |
| C55-C56 | `StorerSet`, dispatcher, solver (`Model/Dispatch`) over arbitrary components | call traces | P |
| C57 | three-index MILP, uniqueness and connectivity constraints | sums of zeros and ones | P |
| C58 | all constraints | witnesses; linear arithmetic; real loads along the path | N |
| C59 | all constraints, against timed plans | witness; construction of an assignment from a plan | N |
| C60-C62 | objective, validation, decoding to trips | witnesses; exact characterisations | N |
| C63 | `compute`, waiting at the first served stop | witnesses; exact timetable of one insertion, depot shift | N |
| C64 | `compute`, rejected feasible placements | witness; exact verdict of an insertion | N |
| C65 | GRASP as composition of iterative and sequential search | fold lemmas | P |
| C66 | arcs of a vehicle | witnesses; path by time-ordered walk, extremal argument | N |
| C67 | `FileLoader` with its memoised formatter, job and fleet | invariant over request histories | P |
| C68 | keyword arguments of storer constructors | all arguments rejected | N |
| C69 | insertion algorithm, feasibility of the result | witness (stale stop verdicts); modes of the verdict invariant | N |
| C70 | insertion algorithm | growth relation on duties | P |
| C71 | `__next__` with `randomized_size = 0` | case analysis | P |
| C72 | two-opt, feasibility of the result | modes of the verdict invariant; feasibility of a reversal | P |
| C73 | one-shift pass | flips of adjacent stops keep `WellFormed`; induction over indices and routes | P |
| C74 | all readers | `Silent`: closure of "changes only memos" under the monad | P |
| C75 | reallocation, feasibility of the result | modes of the verdict invariant | P |
| C76 | routes built from solutions | paths (C66) sorted by time, stops matched by position; witnesses for shared places and depots | N |
| C77 | feasibility of these routes, each trip once | timetable with reachable requests, prefix loads (C58), C18; witnesses | N |
| C78 | length of these routes against plans | arcs of paths summed, C59, C60; witness | N |
| C79-C80 | every function that writes to the heap, run on a deep copy | `Foot`: closed regions of the heap and what is spared outside, closed under the monad | P |
| C81-C83 | local search, default stages and GRASP on the heap (`Model/Algorithms`) | invariant `PlanInv` of a planning, kept by passes and insertions; C39, C45, C46, C65 instantiated; finitely many values of plannings bound the rounds | P |
| C84 | `FileLoader._data` on text (`Model/File`) | grammar of lines, words and numbers in `Spec/File`; the reader is sound and complete for it | P |
| C85 | HashCode objective, loader and routes against the rules of the contest (`Spec/Contest`) | capacities of one make routes serve rides one by one; induction over the rides, comparing both schedules | N |
| C86 | `Solver.solve` with `FileLoader`, GRASP or insertion, and `FileStorer` (`Model/Solve`) | run lemma for the pipeline; C84, C51, C83, C53 and C85 composed; termination from finitely many Hash Code values | N |
| C87 | `columnarReport` | rows read off the linked stops (walk from delivery to pickup), stages specified on the sequence of visits | N |
| C88 | rows of the report | telescoping sum over the stages; witness with a stop in between that takes time | N |
| C89 | `formatFixed`, `posText`, lines | rounding on `ℤ`; lines as words with white space between them | P |
| C90 | `Solver.solve` with its default classes (`Model/Defaults`) | run lemma for the pipeline; C84, C49, C83 and C87 composed; sampling may run if it ends (`Strategy.Ends`) | N |
| C91, C95 | constructors as functions on keyword arguments (`Model/Options`) | congruence: a run depends on the names read only | P |
| C92 | GRASP with a local search strategy (`Model/Options`) | invariant of plannings up to the insertion that gets the strategy | N |
| C93 | GRASP and insertion as called | the nested constructors unfold to `graspOptimize` and `insertionOptimize` with settings read off the arguments (`Spec/Options`), where `only_feasible` is a boolean or absent (integers there are modelled, but no theorem is about them); then C83 | P |
| C94 | seeds with at most one candidate | the candidate list has at most one element, so `choice` has one value | P |
| C96 | `GraphPlotStorer._generate_graph` (`Model/Plot`) | dicts as association lists; the last entry wins | P |
| C97 | plots of good plans | witness (vehicles without trips share a leg); exact conditions; tours read off a plot | N |
| C98 | `GraphPlotStorer.store` on the current figure | witness (second image shows the first plot) | N |
| C99, C100 | programs in examples/cordeau with insertion and GRASP (`Model/Programs`) | run lemma for solvers with keyword arguments; storers commute, so the order of the set does not matter; C93, C87, C96 composed | P |
| C101 | examples/cordeau/example_two_opt.py | C92 through the pipeline | N |
| C102 | examples/hashcode/example_insertion.py | C95 and C93 through the pipeline; witness that the criterion would matter | P |
| C103 | examples/cordeau/example_milp_three_index.py | C76 and C77 give a good plan, then the run lemma for solvers; file with a shared destination as witness | N |
| C104 | `Model.__repr__` of fleets and jobs (`Model/Show`) | literals as an inductive relation; where a literal ends can be seen | P |
| C105 | `Route.identifier` | unique reading up to the next bracket; vehicles without trips as witness | N |
| C106 | `Objective.optimization_function` with its message | case analysis; planned trip without stops as witness | N |
| C107 | examples/read_dataset.py | run lemma for the loader; the file the program names as witness | N |
| C108 | `Model.__repr__` of vehicles, trips and routes | reading from the end, field by field, so that the identifier may be anything | P |
| C109 | `str` of a service | reading from the end; two close positions as witness | N |
| C110 | `Model/Hash`: hash of numbers as documented for CPython, hashes of strings and tuples as parameters | -1 and -2 as witness; exact criterion for integers | N |
| C111 | `Model/Launch`: examples/cordeau/benchmark_launch.py, processes arbitrary | interleavings are permutations; each log is written once | N |
| C112 | `Model/Depth`: `departure_time` with a limit on its nesting | induction on the limit along the predecessors; routes of any length by repeated insertion | N |
| C113 | insertion, local search and GRASP with few trips | routes with few idle stops are short; two runs that agree on every state that occurs (`Valued.Agree`) | P |
| C114 | local search strategies without the copy | run of the strategy plus frame (`SameT`) for the routes handed in | P |
| C115 | local search over a strategy that returns its argument | the counter is reset in every round; induction on the bound on rounds | P |
| C116 | `Model/Rounded`: times and verdicts with a rounding function and computed distances as parameters | order facts along the predecessors; only monotonicity is used | P |
| C117 | the same, with bounds on the errors | induction along the predecessors: start off by (k+1)(2 eps + delta); one comparison lemma for all tests | P |
| C118 | `roundDouble`: 53 binary digits, ties to even, exponent unbounded | binary logarithm; integers that differ by less than one | P |
| C119 | all readers of C74, with their answers | `Steady`: same answer in states that report the same, in layers (times, verdicts of stops, planned trips, routes) | P |
| C120 | one-shift with stale times | invariant on reported times: every stop is left before later ones are reached; loads are not asked when verdicts are memoised | N |
| C121 | `Model/Euclidean`: root, squares and sums in doubles, the squaring function a parameter | integer square root; products of factors close to one; reals for the exact distance | P |
| C122 | the same | from C121 and the triangle inequality over the reals; one triple of points evaluated | N |
| C123 | `Model/Rounded` with these distances | C117 with the errors of C121 | P |
| C124 | `Model/Getters`: `feasible_stops` | verdicts of stops (`Evals`); idle stops inherit the load of the stop before | P |
| C125 | `Model/Getters`: `deliveries`, `all_previous_pickups`, `current_*` | well-formedness; duplicate-free lists with the same members | P |
| C126 | `Model/RoundedValue`: `route.distance`, dial-a-ride values of plannings | products of rounding factors (`foldl_factor`); whole numbers are exact; 0.1, 0.2, 0.3 as witness | N |
| C127 | `Model/RoundedValue`: `best` of plannings | fold invariant of `max`; C126 | P |
| C128 | routes, criteria, objectives of two heaps | the specification is invariant under permutations at each visit; C18, C38 | P |
| C129 | `Model/Iterator`: the field `order` of `Settings` | C30 in both runs; two orders of three trips evaluated | N |
| C130 | the search loops, GRASP and local search of C39, C45, C81, C83 | the longer run is the shorter one followed by more episodes or rounds | P |
| C131 | `Model/RoundedRide`: Hash Code and Taxi-Sharing values of plannings | times of problems in integers are exact (`Whole.at`), sums from the left are exact; a bonus gained by rounding as witness | N |
| C132 | `Route.feasible` against all timings (`Spec/Timing`) | the schedule is the earliest timing; without waiting no timing is shorter; leaving later as witness | N |
| C133 | `Route.remove_trip` against all timings | leaving out visits by the triangle inequality; positions and loads in the longer list; with C132 | N |
| C134 | selections of trips; rejected insertions into empty routes | filtering the visits; load of a selection by the balance of picks and drops; with C132 and C64 | P |
| C135 | idle vehicles and trips left out; enough vehicles | an empty route has one pair of positions, which every strategy tries; the ranking of an idle vehicle holds these insertions (invariants alone, bare, idle); pigeonhole; with C134 | P |
| C136 | translations in space and time | timetables commute with the translation (induction over visits), C18 and C64; a witness for the depot start that is a duration | N |
| C137 | easier problems | effective windows are monotone in the declared ones; timings of C132; a witness with three passengers | N |
| C138 | rides submitted with a vehicle for each | alone-feasibility computed from the file (C51), C134 and C135; C113 for small jobs; C86 for the file | P |
| C139 | GRASP serves what its insertions serve | the trips served as part of the invariant of plannings (C81, C83); growth of routes; with C135 and C138 | P |
| C140 | lines of a submission at the contest; scores without deadlines | induction over rides served one by one (C85); whole numbers absorb ERROR_BOUND; triangle inequality of the grid; with C138 and C139 | P |
| C141 | which trips are served with enough vehicles of a kind | C134 for one direction, the rejected idle vehicle of C135 for the other; C139 carries it to GRASP; witness for unlike vehicles | N |
| C142 | `Planning.vehicles`, `planned_trips`, `trips`; `coverage_rate` with enough vehicles | good plans (C83); C47 with C141 | P |
| C143 | objective values with enough vehicles of a kind | C38 with C141: sums over a subset of the trips; a witness with two trips and bonuses | N |
| C144 | insertion from the result of insertion or GRASP | routes only grow; a route that grew serves a trip more, which C141 excludes; witness | N |
| C145 | jobs with further trips | C141 for both jobs; a witness with one vehicle | N |

The search loops (C39, C45, C46, C65, C130) are modelled over an arbitrary state and an arbitrary inner algorithm
(`Model/Search`).  The MILP (`Model/Milp`) is a list of Boolean tests of an assignment of rationals; constraints
whose coefficient would be infinite are taken as satisfied.

Every property is expressible in the model; none is planned as `not_applicable`.
