import Verif.Model.Copy
import Verif.Model.Objective
import Verif.Model.Strategy

/-!
# Local search strategies, jinete/algorithms/heuristics/local_search/strategies

A result is identified with the routes of its planning, in the order in which that set is iterated. The order in
which the deep-copied set is iterated is a parameter. Logging is left out.
-/

set_option autoImplicit false

namespace Jinete

variable (E : Env)

/-! ## `LocalSearchStrategy`, strategies/abc.py -/

/-- The assertions on one route, strategies/abc.py:44-45 and 51-53. -/
def checkRoute (r : Nat) : M Unit := do
  let h ← Py.read
  Py.assert (linkedCheck h.core (h.core.route r).stops)
  let b ← timesCheck E (h.core.route r).stops
  Py.assert b

/-- `LocalSearchStrategy.__init__` and `improve`, strategies/abc.py:22-26 and 40-55: work on a deep copy of the result,
check its routes, run `_improve`, check the routes again. `order` is the order in which the copied set is iterated;
`step` is `_improve`, which yields the routes of the planning afterwards. -/
def improveWith (order : List Nat → List Nat) (step : List Nat → M (List Nat)) (routes : List Nat) : M (List Nat) := do
  let copied ← deepcopyRoutes routes
  Py.forEach (order copied) (checkRoute E)
  let l ← step (order copied)
  Py.forEach l (checkRoute E)
  pure l

/-- `LocalSearchStrategy(result, with_copy=False)` and `improve`, strategies/abc.py:22-26 and 40-55: the same without the
copy. What it yields are the routes of the planning of the given result afterwards. -/
def improveInPlace (step : List Nat → M (List Nat)) (routes : List Nat) : M (List Nat) := do
  Py.forEach routes (checkRoute E)
  let l ← step routes
  Py.forEach l (checkRoute E)
  pure l

/-- `LocalSearchStrategy._update_routes`, strategies/abc.py:61-66. Routes are truthy, so `any` asks whether there are
overwritten routes. -/
def updateRoutes (routes overwritten : List Nat) : M (List Nat) := do
  let h ← Py.read
  if overwritten = [] then pure routes
  else pure ((routes.filter fun r => decide ((h.core.route r).vehicle ∉ overwritten.map fun q => (h.core.route q).vehicle)) ++
    overwritten)

/-! ## Reallocation, strategies/plannings/reallocation.py -/

variable (k : Objective)

/-- `itertools.permutations(l, 2)` of the distinct elements of a set. -/
def permutations2 (l : List Nat) : List (Nat × Nat) :=
  l.flatMap fun a => (l.filter fun b => decide (b ≠ a)).map fun b => (a, b)

/-- `self._objective.optimization_function(x)[-1]`. -/
def lastValue (x : Optimizable) : M ℚ := do
  let v ← k.value E x
  Py.unwrap .indexError v.getLast?

/-- The local variables `best_cost` and `overwritten_routes`. -/
structure Found where
  best : ℚ
  overwritten : List Nat

/-- The loop over index pairs, reallocation.py:40-52. -/
def reallocPairs (destination trip newOrigin : Nat) (partialOrigin : ℚ) : List (Nat × Nat) → Found → M Found
  | [], f => pure f
  | (i, j) :: l, f => do
    let ds ← compute E true destination [trip] i j
    match ds with
    | [] => reallocPairs destination trip newOrigin partialOrigin l f
    | d :: _ => do
      let v ← lastValue E k (.route d)
      reallocPairs destination trip newOrigin partialOrigin l
        (if f.best < partialOrigin + v then ⟨partialOrigin + v, [newOrigin, d]⟩ else f)

/-- The loop over the trips of the origin, reallocation.py:30-52. `draw n` is what the next call of
`sample_index_pairs(n, 128)` yields, `none` if it does not end; `calls` counts those calls (they draw from the module-level
random generator). The trips are listed when the loop starts; nothing changes them while it runs. -/
def reallocTrips (draw : Nat → Nat → Option (List (Nat × Nat))) (origin destination : Nat) (partialCost : ℚ) :
    List Nat → Found → Nat → M (Found × Nat)
  | [], f, calls => pure (f, calls)
  | trip :: l, f, calls => do
    let newOrigin ← cloneRoute E origin 0
    removeTrip E newOrigin trip
    flushRoute newOrigin
    let b ← routeFeasible E newOrigin
    if b then do
      let v ← lastValue E k (.route newOrigin)
      let stops ← routeStops destination
      match draw calls stops.length with
      | none => Py.raise .outOfFuel
      | some ps => do
        let f' ← reallocPairs E k destination trip newOrigin (partialCost + v) ps f
        reallocTrips draw origin destination partialCost l f' (calls + 1)
    else reallocTrips draw origin destination partialCost l f calls

/-- The loop over pairs of routes, reallocation.py:24-52. -/
def reallocRoutes (draw : Nat → Nat → Option (List (Nat × Nat))) (base : ℚ) :
    List (Nat × Nat) → Found → Nat → M (Found × Nat)
  | [], f, calls => pure (f, calls)
  | (o, d) :: l, f, calls => do
    let vo ← lastValue E k (.route o)
    let vd ← lastValue E k (.route d)
    let h ← Py.read
    let (f', calls') ← reallocTrips E k draw o d (base - vo - vd) (routeTrips h.core o) f calls
    reallocRoutes draw base l f' calls'

/-- `ReallocationLocalSearchStrategy._improve`, reallocation.py:16-54. -/
def reallocation (draw : Nat → Nat → Option (List (Nat × Nat))) (routes : List Nat) : M (List Nat) := do
  let base ← lastValue E k (.planning routes)
  let (f, _) ← reallocRoutes E k draw base (permutations2 routes) ⟨base, []⟩ 0
  updateRoutes routes f.overwritten

/-- `sample_index_pairs(n, 128)` with the random numbers of the given call, jinete/utils/random.py:28-44. -/
def sampleDraw (rnd : Nat → Nat → Nat → Nat → Nat) (fuel : Nat) (calls n : Nat) : Option (List (Nat × Nat)) :=
  sampleIndexPairs n 128 (rnd calls) fuel

/-! ## Two-opt, strategies/routes/two_opt.py -/

/-- The condition of two_opt.py:25-31 for the stops `route.stops[i : j + 1]`: a trip is delivered and picked up among
them. -/
def twoOptBlocked (c : Core) (seg : List Nat) : Bool :=
  seg.any fun a => (c.stop a).deliveries.any fun d => (seg.flatMap fun b => (c.stop b).pickups).contains d

/-- `[new_route.remove_stop_at(i) for _ in range(n)]`, two_opt.py:37. -/
def removeMany (r i : Nat) : Nat → M (List Nat)
  | 0 => pure []
  | n + 1 => do
    let s ← removeStopAt r i
    let l ← removeMany r i n
    pure (s :: l)

/-- `Route.current_stop`, jinete/models/routes.py:189-192 (`stops[-2]`). -/
def currentStop (r : Nat) : M Nat := do
  let l ← routeStops r
  Py.unwrap .indexError l.dropLast.getLast?

/-- The loops of two_opt.py:40-46: append the stops before the last one, in the given order. -/
def reinsert (r : Nat) : List Nat → M Unit
  | [] => pure ()
  | s :: l => do
    let cur ← currentStop r
    Py.modify fun h => h.setStop s { h.core.stop s with previous := some cur }
    let _ ← insertStop r s
    reinsert r l

/-- The candidate for the pair `i, k`, two_opt.py:35-46 with `j = k + 1`; `i >= 1`. -/
def twoOptCandidate (route i j : Nat) : M Nat := do
  let r ← cloneRoute E route (i - 1)
  let l ← routeStops r
  let old ← removeMany r i (l.length - 1 - i)
  reinsert r (old.take (j + 1 - i)).reverse
  reinsert r (old.drop (j + 1 - i))
  pure r

/-- The loop over pairs, two_opt.py:23-57, with the local variables `cost` and `overwritten_routes`. -/
def twoOptPairs (route : Nat) : List (Nat × Nat) → List ℚ → List Nat → M (List Nat)
  | [], _, over => pure over
  | (i, m) :: l, cost, over => do
    let h ← Py.read
    if twoOptBlocked h.core (((h.core.route route).stops.take (m + 1 + 1)).drop i) then twoOptPairs route l cost over
    else do
      let r ← twoOptCandidate E route i (m + 1)
      let b ← routeFeasible E r
      if b then do
        let v ← k.value E (.route r)
        if cost < v then twoOptPairs route l v (over ++ [r]) else twoOptPairs route l cost over
      else twoOptPairs route l cost over

/-- `itertools.combinations(range(1, n - 1), 2)`. -/
def innerPairs (n : Nat) : List (Nat × Nat) := (combinations2 (n - 2)).map fun x => (x.1 + 1, x.2 + 1)

/-- The loop over routes, two_opt.py:19-57. -/
def twoOptRoutes : List Nat → List Nat → M (List Nat)
  | [], over => pure over
  | r :: l, over => do
    let cost ← k.value E (.route r)
    let stops ← routeStops r
    let over' ← twoOptPairs E k r (innerPairs stops.length) cost over
    twoOptRoutes l over'

/-- `TwoOPTLocalSearchStrategy._improve`, two_opt.py:15-59. -/
def twoOpt (routes : List Nat) : M (List Nat) := do
  let over ← twoOptRoutes E k routes []
  updateRoutes routes over

/-! ## One-shift, strategies/routes/one_shift.py -/

/-- `l.index(x)`. -/
def indexOf (l : List Nat) (x : Nat) : M Nat :=
  if x ∈ l then pure (l.idxOf x) else Py.raise .valueError

/-- `OneShiftLocalSearchStrategy._flip`, one_shift.py:38-52. -/
def flipStops (r previous other : Nat) (following : Option Nat) : M Unit := do
  let h ← Py.read
  Py.assert (following.all fun f => decide ((h.core.stop f).previous = some other))
  Py.assert (decide ((h.core.stop other).previous = some previous))
  let a ← indexOf (h.core.route r).stops other
  let b ← indexOf (h.core.route r).stops previous
  Py.modify fun h => h.setRoute r { h.core.route r with stops := ((h.core.route r).stops.set a previous).set b other }
  ifSome following fun f => Py.modify fun h => h.setStop f { h.core.stop f with previous := some previous }
  Py.modify fun h => h.setStop other { h.core.stop other with previous := (h.core.stop previous).previous }
  Py.modify fun h => h.setStop previous { h.core.stop previous with previous := some other }
  Py.modify fun h => flushStops h ((h.core.route r).stops.drop a)

/-- `not route.feasible or cost == self._objective.best(cost, route)`, one_shift.py:31. A route is never equal to a
tuple. -/
def oneShiftRejects (r : Nat) (cost : List ℚ) : M Bool := do
  let b ← routeFeasible E r
  if b then do
    let x ← k.best E [some (.tuple cost), some (.route r)]
    pure (decide (x = some (.tuple cost)))
  else pure true

/-- One iteration of the loop over indices, one_shift.py:21-36; yields the new `cost`. -/
def oneShiftAt (r i : Nat) (cost : List ℚ) : M (List ℚ) := do
  let l ← routeStops r
  let first ← Py.index l i
  let second ← Py.index l (i + 1)
  let third := l[i + 2]?
  let h ← Py.read
  if (h.core.stop first).pickups.any fun p => (h.core.stop second).deliveries.contains p then pure cost
  else do
    flipStops r first second third
    let rejected ← oneShiftRejects E k r cost
    if rejected then do
      flipStops r second first third
      pure cost
    else k.value E (.route r)

/-- The loop over indices, one_shift.py:20-36. -/
def oneShiftLoop (r : Nat) : List Nat → List ℚ → M Unit
  | [], _ => pure ()
  | i :: l, cost => do
    let cost' ← oneShiftAt E k r i cost
    oneShiftLoop r l cost'

/-- The loop over routes, one_shift.py:17-36. -/
def oneShiftRoute (r : Nat) : M Unit := do
  let cost ← k.value E (.route r)
  let l ← routeStops r
  oneShiftLoop E k r ((List.range (l.length - 2)).map (· + 1)) cost

/-- `OneShiftLocalSearchStrategy._improve`, one_shift.py:15-36. -/
def oneShift (routes : List Nat) : M (List Nat) := do
  Py.forEach routes (oneShiftRoute E k)
  pure routes

end Jinete
