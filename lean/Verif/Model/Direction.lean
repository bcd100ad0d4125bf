import Verif.Basic
import Mathlib.Order.Defs.LinearOrder

/-!
# Optimisation directions, jinete/models/constants.py:47-75

The functions below work on lists of pairs of a candidate and its key: Python's `max`, `min`, `sorted` and
`heapq.nlargest`/`nsmallest` evaluate the key once per element, in order, before or while comparing.
-/

set_option autoImplicit false

namespace Jinete

variable {α K : Type}

/-- `OptimizationDirection`, jinete/models/constants.py:47-50. -/
inductive Direction
  | maximization
  | minimization
  deriving DecidableEq

/-- Python `max(l, key=..., default=None)`: a later element replaces the current one only if its key is
greater. -/
def pickMax [LinearOrder K] : List (α × K) → Option α
  | [] => none
  | x :: l => some (l.foldl (fun best y => if best.2 < y.2 then y else best) x).1

/-- Python `min(l, key=..., default=None)`: a later element replaces the current one only if its key is
smaller. -/
def pickMin [LinearOrder K] : List (α × K) → Option α
  | [] => none
  | x :: l => some (l.foldl (fun best y => if y.2 < best.2 then y else best) x).1

/-- `OptimizationDirection.__call__`, jinete/models/constants.py:52-53. -/
def Direction.pick [LinearOrder K] : Direction → List (α × K) → Option α
  | .maximization => pickMax
  | .minimization => pickMin

/-- Insert before the first element that does not have to come earlier. -/
def insertKeyed (le : K → K → Bool) (x : α × K) : List (α × K) → List (α × K)
  | [] => [x]
  | y :: l => if le x.2 y.2 then x :: y :: l else y :: insertKeyed le x l

/-- Stable sort (`sorted` and `list.sort` are stable). -/
def sortKeyed (le : K → K → Bool) : List (α × K) → List (α × K)
  | [] => []
  | x :: l => insertKeyed le x (sortKeyed le l)

/-- Which key may come first: with `reverse=True` (maximization) the larger one. -/
def Direction.le [LinearOrder K] : Direction → K → K → Bool
  | .maximization, a, b => decide (b ≤ a)
  | .minimization, a, b => decide (a ≤ b)

/-- `OptimizationDirection.sorted`, jinete/models/constants.py:62-69. `reverse=True` keeps the order of
elements with equal keys. -/
def Direction.sorted [LinearOrder K] (d : Direction) (l : List (α × K)) : List α := (sortKeyed d.le l).map Prod.fst

/-- `OptimizationDirection.nbest`, jinete/models/constants.py:71-75: `heapq.nlargest(n, it, key)` is documented
as `sorted(it, key=key, reverse=True)[:n]`, `heapq.nsmallest(n, it, key)` as `sorted(it, key=key)[:n]`. -/
def Direction.nbest [LinearOrder K] (d : Direction) (n : Nat) (l : List (α × K)) : List α :=
  ((sortKeyed d.le l).take n).map Prod.fst

/-- Evaluate the key of every element, in order. -/
def keyed {σ : Type} (key : α → Py σ K) (l : List α) : Py σ (List (α × K)) :=
  Py.mapEach l fun x => do
    let k ← key x
    pure (x, k)

/-- `self.direction((arg for arg in args if arg is not None), key=key, default=None)`,
jinete/models/criterions.py:43-44 and jinete/models/objectives.py:58-59. -/
def bestOf {σ : Type} [LinearOrder K] (d : Direction) (key : α → Py σ K) (args : List (Option α)) : Py σ (Option α) := do
  let l ← keyed key (args.filterMap id)
  pure (d.pick l)

end Jinete
