import Verif.Model.Direction
import Mathlib.Data.List.Lex
import Mathlib.Algebra.Order.Field.Rat

/-!
# Loops of the local search and of the metaheuristics

jinete/algorithms/heuristics/local_search/algorithm.py, jinete/algorithms/metaheuristics/iterative.py,
sequential.py and grasp.py.

The inner algorithms and strategies are parameters: any computation on a mutable state `σ`. A result is
identified with its planning (type `R`): `_optimize` returns `best.planning` and `optimize` wraps that very
planning in a new `Result`. `value` evaluates the objective (`Objective.optimization_function`).
-/

set_option autoImplicit false

namespace Jinete

variable {σ R : Type}

/-- `self._objective.best(a, b)` where `b` is not `None`, so neither is the answer
(jinete/models/objectives.py:58-59). -/
def bestResult (value : R → Py σ (List ℚ)) (a : Option R) (b : R) : Py σ R := do
  let x ← bestOf .maximization value [a, some b]
  Py.unwrap .assertion x

/-- The loop of `LocalSearchAlgorithm._optimize`,
jinete/algorithms/heuristics/local_search/algorithm.py:58-73. `improve r` is
`self.strategy_cls(r).improve()`. Results are compared by identity (`Result` defines no `__eq__`). -/
def localSearch [DecidableEq R] (improve : R → Py σ R) (value : R → Py σ (List ℚ)) (threshold : Nat) :
    Nat → R → Nat → Py σ R
  | 0, _, _ => Py.raise .outOfFuel
  | n + 1, best, count =>
    if count < threshold then do
      let current ← improve best
      let best' ← bestResult value (some best) current
      if best' = current then localSearch improve value threshold n best' 0
      else localSearch improve value threshold n best' (count + 1)
    else pure best

/-- The loop of `IterativeAlgorithm._optimize`, jinete/algorithms/metaheuristics/iterative.py:79-85, from
episode `i` on. `run seed initial` builds and optimises the inner algorithm; `initial` is what is passed as
keyword `initial` by the loop (`None`: not passed). `seeds i` is the `i`-th number drawn from `self.random`. -/
def iterativeLoop (run : Nat → Option R → Py σ R) (value : R → Py σ (List ℚ)) (restart : Bool) (seeds : Nat → Nat) :
    Nat → Nat → Option R → Py σ (Option R)
  | 0, _, best => pure best
  | n + 1, i, best => do
    let current ← run (seeds i) (if restart then none else best)
    let best' ← bestResult value best current
    iterativeLoop run value restart seeds n (i + 1) (some best')

/-- `IterativeAlgorithm._optimize`, jinete/algorithms/metaheuristics/iterative.py:77-88. -/
def iterative (run : Nat → Option R → Py σ R) (value : R → Py σ (List ℚ)) (restart : Bool) (seeds : Nat → Nat)
    (episodes : Nat) : Py σ R := do
  let best ← iterativeLoop run value restart seeds episodes 0 none
  Py.unwrap .assertion best

/-- The loop of `SequentialAlgorithm._optimize`, jinete/algorithms/metaheuristics/sequential.py:90-92. -/
def sequentialLoop : List (Option R → Py σ R) → Option R → Py σ (Option R)
  | [], current => pure current
  | stage :: l, current => do
    let r ← stage current
    sequentialLoop l (some r)

/-- `SequentialAlgorithm._optimize`, jinete/algorithms/metaheuristics/sequential.py:89-93: `None.planning` raises
`AttributeError`. -/
def sequential (stages : List (Option R → Py σ R)) (initial : Option R) : Py σ R := do
  let r ← sequentialLoop stages initial
  Py.unwrap .attributeError r

/-- `Algorithm.optimize` around a `_optimize`, jinete/algorithms/abc.py:54-73: `log` evaluates the verdict and the value of
the planning for the log; the result holds the planning. -/
def logged (log : R → Py σ Unit) (m : Py σ R) : Py σ R := do
  let r ← m
  log r
  pure r

/-- `GraspAlgorithm._optimize`, jinete/algorithms/metaheuristics/grasp.py:79-106: `optimize` of an iterative algorithm whose
episodes run a sequential one made of an iterative first solution (restarting, `firstEpisodes` episodes of `first`)
and an iterative improvement (three episodes, not restarting, of a sequential algorithm with stages `stages`).
`draw i` and `draw' i` are the seeds drawn in the inner loops of outer episode seed `i`. The `initial` given to the
improvement reaches the first of its episodes through the stored keyword arguments
(jinete/algorithms/metaheuristics/iterative.py:72-75). The `initial` given to the first solution is `None`. `first` and
`stages` are the `optimize` methods of the inner algorithms; `log` is what `optimize` of the loops around them does
besides. -/
def grasp (log : R → Py σ Unit) (first : Nat → Py σ R) (stages : Nat → List (Option R → Py σ R)) (value : R → Py σ (List ℚ))
    (seeds : Nat → Nat) (draw draw' : Nat → Nat → Nat) (episodes firstEpisodes : Nat) : Py σ R :=
  logged log (iterative (fun seed _ => logged log (sequential
    [fun _ => logged log (iterative (fun s _ => first s) value true (draw seed) firstEpisodes),
     fun initial => logged log (iterative (fun s best => logged log (sequential (stages s) (best.or initial))) value false
      (draw' seed) 3)] none)) value true seeds episodes)

end Jinete
