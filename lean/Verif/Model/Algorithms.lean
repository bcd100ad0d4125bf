import Verif.Model.Search
import Verif.Model.LocalSearch
import Verif.Model.Iterator
import Verif.Model.Objective

/-!
# The algorithms put together

jinete/algorithms/abc.py, heuristics/insertion/algorithm.py, heuristics/local_search/algorithm.py,
metaheuristics/sequential.py and metaheuristics/grasp.py, working on the heap. A result is the list of the routes of its
planning, in an order in which the set may be iterated.

What a run draws at random, and the orders in which it iterates over sets, may depend on everything that happened before:
they are functions of the heap. Each pass and each insertion creates objects, so the heap tells the calls apart.
-/

set_option autoImplicit false

namespace Jinete

variable (E : Env) (k : Objective)

/-- The objective value of a result, jinete/models/results.py:87-93 and objectives.py:61-85. -/
def resultValue (rs : List Nat) : M (List ℚ) := k.value E (.result rs)

/-- What `optimize` evaluates for its log, jinete/algorithms/abc.py:68-72: verdict and value of the result. -/
def logResult (rs : List Nat) : M Unit := do
  let _ ← planningFeasible E rs
  let _ ← resultValue E k rs
  pure ()

/-- `InsertionAlgorithm._optimize` with the ranking iterator, heuristics/insertion/algorithm.py:37-52; the iterator is
local to the call. -/
def insertionPlanning (S : Settings) (initial : Option (List Nat)) (fuel : Nat) : M (List Nat) := fun h =>
  ((insertionAlgorithm S initial fuel (.initial h)).1, (insertionAlgorithm S initial fuel (.initial h)).2.heap)

/-- `InsertionAlgorithm(initial=...).optimize()`. -/
def insertionOptimize (S : Heap → Settings) (fuel : Nat) (initial : Option (List Nat)) : M (List Nat) :=
  logged (logResult E k) fun h => insertionPlanning (S h) initial fuel h

/-- What a pass of reallocation draws: the order of the copied set of routes, and the sampled index pairs. -/
structure Draws where
  order : List Nat → List Nat
  pairs : Nat → Nat → Option (List (Nat × Nat))

/-- `ReallocationLocalSearchStrategy(result).improve()`, strategies/abc.py:22-55 and plannings/reallocation.py. -/
def reallocationPass (D : Heap → Draws) (rs : List Nat) : M (List Nat) := fun h =>
  improveWith E (D h).order (reallocation E k (D h).pairs) rs h

/-- `LocalSearchAlgorithm(initial=...).optimize()` with the default strategy, heuristics/local_search/algorithm.py:58-73.
Without an initial result, the strategy raises `AttributeError`; if no pass is made, the assertion fails. Results with
routes are told apart by the routes, since each pass works on new ones. From a result without routes every pass makes
another one that is no better; the search keeps the first, and the log raises `TypeError` on its verdict. -/
def localSearchOptimize (D : Heap → Draws) (threshold fuel : Nat) : Option (List Nat) → M (List Nat)
  | none => if 0 < threshold then Py.raise .attributeError else Py.raise .assertion
  | some [] => Py.raise .typeError
  | some (r :: rs) => logged (logResult E k) (localSearch (reallocationPass E k D) (resultValue E k) threshold fuel (r :: rs) 0)

/-- `self.strategy_cls(best).improve()` for a strategy class that calls its base class with `with_copy=False`. There is one
result, the value of type `Unit`; the state holds the routes of its planning next to the heap. After an exception those
routes are not tracked. -/
def inPlacePass (step : List Nat → M (List Nat)) : Unit → Py (Heap × List Nat) Unit := fun _ s =>
  match improveInPlace E step s.2 s.1 with
  | (.ok l, h) => (.ok (), (h, l))
  | (.error e, h) => (.error e, (h, s.2))

/-- The objective value of that result. -/
def heldValue : Unit → Py (Heap × List Nat) (List ℚ) := fun _ s => ((resultValue E k s.2 s.1).1, ((resultValue E k s.2 s.1).2, s.2))

/-- `LocalSearchAlgorithm._optimize` with such a strategy class, heuristics/local_search/algorithm.py:58-73. -/
def localSearchInPlace (step : List Nat → M (List Nat)) (threshold fuel : Nat) : Py (Heap × List Nat) Unit :=
  localSearch (inPlacePass E step) (heldValue E k) threshold fuel () 0

/-- The default stages of `SequentialAlgorithm`, metaheuristics/sequential.py:61-71: local search with reallocation, then
insertion. -/
def defaultStages (D : Heap → Draws) (S : Heap → Settings) (threshold fuel : Nat) : List (Option (List Nat) → M (List Nat)) :=
  [localSearchOptimize E k D threshold fuel, insertionOptimize E k S fuel]

/-- `GraspAlgorithm(...).optimize()` with default algorithms, metaheuristics/grasp.py:79-106 and iterative.py:61-62: first
solutions by insertion, improvement by the default stages. `D s` and `S s` are what the algorithms built with seed `s`
draw. -/
def graspOptimize (D : Nat → Heap → Draws) (S : Nat → Heap → Settings) (threshold fuel : Nat) (seeds : Nat → Nat)
    (draw draw' : Nat → Nat → Nat) (episodes firstEpisodes : Nat) : M (List Nat) :=
  logged (logResult E k) (grasp (logResult E k) (fun s => insertionOptimize E k (S s) fuel none)
    (fun s => defaultStages E k (D s) (S s) threshold fuel) (resultValue E k) seeds draw draw' episodes firstEpisodes)

end Jinete
