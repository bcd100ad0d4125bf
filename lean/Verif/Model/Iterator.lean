import Verif.Model.Strategy
import Verif.Model.Criterion
import Verif.Model.Copy

/-!
# Insertion iterators and the insertion algorithm

jinete/algorithms/heuristics/insertion/iterators/{abc,ranking,stateless}.py and
jinete/algorithms/heuristics/insertion/algorithm.py.

Python sets are lists. Whenever the code iterates over a set, the order is asked from an arbitrary function of the
number of questions asked so far (`Settings.order`); the same holds for `random.choice` (`Settings.choice`) and the
random stream of the sampling strategy. Logging is left out.
-/

set_option autoImplicit false

namespace Jinete

/-- `strategy_cls`: the three subclasses of `InsertionStrategy`. `rnd k` is the random stream seen by the `k`-th call
of the sampling strategy. -/
inductive Strategy
  | intensive
  | tail
  | sampling (count fuel : Nat) (rnd : Nat → Nat → Nat → Nat → Nat)

/-- `_strategy.compute(route, trips)`, strategies/{intensive,tail,sampling}.py. -/
def Strategy.compute (E : Env) (onlyFeasible : Bool) (k : Nat) (r : Nat) (trips : List Nat) : Strategy → M (List Nat)
  | .intensive => computeIntensive E onlyFeasible r trips
  | .tail => computeTail E onlyFeasible r trips
  | .sampling count fuel rnd => computeSampling E onlyFeasible r trips count (rnd k) fuel

/-- The arguments of an iterator, iterators/abc.py:50-87 and iterators/ranking.py:31-40. `job` and `fleet` list the
trips and vehicles; `neighborhood` is `neighborhood_max_size`. -/
structure Settings where
  env : Env
  fleet : List Nat
  job : List Nat
  criterion : Criterion
  strategy : Strategy
  onlyFeasible : Bool
  neighborhood : Option Nat
  randomized : Nat
  /-- the order in which a set is iterated -/
  order : Nat → List Nat → List Nat
  /-- the index that `random.choice` takes from a list of the given length -/
  choice : Nat → Nat → Nat

/-- The attributes of an iterator and the heap. Dictionaries are lists of keys and values in order of insertion. -/
structure IterState where
  heap : Heap
  /-- `routes_container` -/
  container : List (Nat × Nat)
  /-- `__attractive_routes` -/
  attractive : Option (List Nat)
  /-- `pending_trips` -/
  pending : List Nat
  /-- `ranking` (`RankingInsertionIterator` only) -/
  ranking : List (Nat × List Nat)
  /-- the cached generator `iterator` (`StatelessInsertionIterator` only): the pairs still to come and the routes
  computed but not yet yielded -/
  gen : Option (List (Nat × Nat) × List Nat)
  /-- how many questions were asked -/
  clock : Nat

/-- Methods of an iterator. -/
abbrev IterM := Py IterState

/-- Run a method of the models. -/
def onHeap {α : Type} (m : M α) : IterM α := fun s =>
  match m s.heap with
  | (a, h) => (a, { s with heap := h })

/-- `d[k] = v`. -/
def dictSet {β : Type} (d : List (Nat × β)) (k : Nat) (v : β) : List (Nat × β) :=
  if k ∈ d.map Prod.fst then d.map fun e => if e.1 = k then (k, v) else e else d ++ [(k, v)]

/-- `d[k]`. -/
def dictGet {σ β : Type} (d : List (Nat × β)) (k : Nat) : Py σ β := Py.unwrap .keyError (d.lookup k)

variable (S : Settings)

/-- The next question. -/
def tick : IterM Nat := fun s => (.ok s.clock, { s with clock := s.clock + 1 })

/-- The elements of a set, in the order in which they are iterated this time. -/
def ordered (l : List Nat) : IterM (List Nat) := do
  let k ← tick
  pure (S.order k l)

/-- `_routes`, iterators/abc.py:89-91. -/
def iterRoutes : IterM (List Nat) := do
  let s ← Py.read
  ordered S (s.container.map Prod.snd)

/-- The state of an iterator before its constructor ran. -/
def IterState.initial (h : Heap) : IterState := ⟨h, [], none, [], [], none, 0⟩

/-- The routes an iterator starts with: new ones, or copies of the routes given, iterators/abc.py:70-75. -/
def startingRoutes (routes : Option (List Nat)) : IterM (List Nat) :=
  match routes with
  | none => do
    let vs ← ordered S S.fleet
    Py.mapEach vs fun v => onHeap (newRoute S.env v)
  | some rs => onHeap (deepcopyRoutes rs)

/-- `InsertionIterator.__init__`, iterators/abc.py:50-87: the routes and what is left to do. `routes` are the routes
given, if any. -/
def iteratorInit (routes : Option (List Nat)) : IterM Unit := do
  let rs ← startingRoutes S routes
  let s ← Py.read
  let done := if routes.isSome then rs.flatMap (routeTrips s.heap.core) else []
  let rs ← ordered S rs
  Py.modify fun s => { s with
    container := rs.foldl (fun d r => dictSet d (s.heap.core.route r).vehicle r) []
    attractive := none
    pending := S.job.filter fun t => t ∉ done }

/-- The set of `_attractive_routes` so far, created on first use, iterators/abc.py:95-96. `any(route.planned_trips)`
is `routeLoaded`: planned trips are truthy. -/
def knownAttractive : IterM (List Nat) := do
  let s ← Py.read
  match s.attractive with
  | some a => pure a
  | none => do
    let rs ← iterRoutes S
    pure (rs.filter (routeLoaded s.heap.core))

/-- The set completed with one empty route if none of its routes has a planned trip, iterators/abc.py:98-101. -/
def completeAttractive (a : List Nat) : IterM (List Nat) := do
  let s ← Py.read
  if a.any (routeLoaded s.heap.core) then pure a
  else do
    let rs ← iterRoutes S
    match rs.find? (fun r => !routeLoaded s.heap.core r) with
    | none => pure a
    | some r => pure (if r ∈ a then a else a ++ [r])

/-- `_attractive_routes`, iterators/abc.py:93-102. The set keeps its elements. -/
def attractiveRoutes : IterM (List Nat) := do
  let a ← knownAttractive S
  let a ← completeAttractive S a
  Py.modify fun s => { s with attractive := some a }
  pure a

/-- `InsertionIterator._mark_trip_as_done`, iterators/abc.py:144-146: `set.remove` raises `KeyError` if the trip is
not there. -/
def markTripDone (t : Nat) : IterM Unit := do
  let s ← Py.read
  if t ∈ s.pending then Py.modify fun s => { s with pending := s.pending.erase t }
  else Py.raise .keyError

/-- `_set_route`, iterators/abc.py:104-112; `mark` is the method `_mark_planned_trip_as_done` of the class. -/
def setRoute (mark : Nat → IterM Unit) (r : Nat) : IterM Unit := do
  let s ← Py.read
  let v := (s.heap.core.route r).vehicle
  let old ← dictGet s.container v
  let oldTrips := routeTrips s.heap.core old
  Py.modify fun s => { s with container := dictSet s.container v r }
  Py.forEach (routePlannedTrips s.heap.core r) fun p =>
    if (s.heap.core.pt p).trip ∈ oldTrips then pure () else mark p

/-! ## The ranking iterator -/

/-- `neighborhood_max_size` after the constructor, iterators/ranking.py:34-37. -/
def neighborhoodSize : Nat := min (S.neighborhood.getD S.job.length) S.job.length

/-- `_create_sub_ranking`, iterators/ranking.py:67-75. -/
def createSubRanking (r : Nat) : IterM (List Nat) := do
  let s ← Py.read
  let ts ← ordered S s.pending
  let k ← tick
  let raw ← onHeap (S.strategy.compute S.env S.onlyFeasible k r (ts.take (neighborhoodSize S)))
  onHeap (S.criterion.sorted S.env raw)

/-- `_initialize_ranking`, iterators/ranking.py:45-49. -/
def initializeRanking : IterM Unit := do
  let a ← attractiveRoutes S
  let a ← ordered S a
  Py.forEach a fun r => do
    let l ← createSubRanking S r
    Py.modify fun s => { s with ranking := dictSet s.ranking (s.heap.core.route r).vehicle l }

/-- `_update_vehicle_ranking`, iterators/ranking.py:60-65. -/
def updateVehicleRanking (p v : Nat) : IterM Unit := do
  let s ← Py.read
  match s.ranking.lookup v with
  | some l =>
    if v = (s.heap.core.pt p).vehicle then do
      let l ← createSubRanking S (← dictGet s.container v)
      Py.modify fun s => { s with ranking := dictSet s.ranking v l }
    else
      Py.modify fun s => { s with
        ranking := dictSet s.ranking v (l.filter fun q => (s.heap.core.pt p).trip ∉ routeTrips s.heap.core q) }
  | none => do
    let l ← createSubRanking S (← dictGet s.container v)
    Py.modify fun s => { s with ranking := dictSet s.ranking v l }

/-- `_update_ranking`, iterators/ranking.py:55-58. -/
def updateRanking (p : Nat) : IterM Unit := do
  let a ← attractiveRoutes S
  let a ← ordered S a
  Py.forEach a fun r => do
    let s ← Py.read
    updateVehicleRanking S p (s.heap.core.route r).vehicle

/-- `RankingInsertionIterator._mark_planned_trip_as_done`, iterators/ranking.py:51-53 and iterators/abc.py:137-142. -/
def markRanked (p : Nat) : IterM Unit := do
  let s ← Py.read
  markTripDone (s.heap.core.pt p).trip
  updateRanking S p

/-- `len(candidates) == self.randomized_size and self._criterion.best(candidates[-1], current) == candidates[-1]`,
iterators/ranking.py:87-90. -/
def outOfReach (cand : List Nat) (current : Nat) : IterM Bool :=
  if cand.length = S.randomized then
    match cand.getLast? with
    | none => Py.raise .indexError
    | some last => do
      let b ← onHeap (S.criterion.best S.env [some last, some current])
      pure (decide (b = some last))
  else pure false

/-- `if self.randomized_size <= len(candidates): candidates.pop()` and `candidates.append(current)`,
iterators/ranking.py:93-96. -/
def pushCandidate (cand : List Nat) (current : Nat) : List Nat :=
  (if S.randomized ≤ cand.length then cand.dropLast else cand) ++ [current]

/-- The inner loop of `__next__`, iterators/ranking.py:86-96. -/
def scanSub : List Nat → List Nat → IterM (List Nat)
  | [], cand => pure cand
  | current :: l, cand => do
    let stop ← outOfReach S cand current
    if stop then pure cand else scanSub l (pushCandidate S cand current)

/-- The outer loop of `__next__`, iterators/ranking.py:82-98. -/
def scanRanking : List (Nat × List Nat) → List Nat → IterM (List Nat)
  | [], cand => pure cand
  | (_, sub) :: rest, cand =>
    if sub.isEmpty then scanRanking rest cand
    else do
      let cand ← scanSub S sub cand
      let cand ← onHeap (S.criterion.sorted S.env cand)
      scanRanking rest cand

/-- `self.random.choice(candidates)`. -/
def randomChoice (l : List Nat) : IterM Nat := do
  let k ← tick
  Py.index l (S.choice k l.length)

/-- `RankingInsertionIterator.__next__`, iterators/ranking.py:77-104. `any` of vehicles or routes asks whether there
is one: they are truthy. -/
def nextRanked : IterM Nat := do
  let s ← Py.read
  if s.ranking.isEmpty then Py.raise .stopIteration
  else do
    let cand ← scanRanking S s.ranking []
    if cand.isEmpty then Py.raise .stopIteration
    else randomChoice S cand

/-- `RankingInsertionIterator(...)`, iterators/ranking.py:31-43. -/
def rankingInit (routes : Option (List Nat)) : IterM Unit := do
  iteratorInit S routes
  initializeRanking S

/-! ## The stateless iterators -/

/-- `StatelessInsertionIterator._mark_trip_as_done` and `flush`, iterators/stateless.py:42-48, called from
`InsertionIterator._mark_planned_trip_as_done` (iterators/abc.py:137-142). -/
def markStateless (p : Nat) : IterM Unit := do
  let s ← Py.read
  markTripDone (s.heap.core.pt p).trip
  Py.modify fun s => { s with gen := none }

/-- Advance the generator to its next route, iterators/stateless.py:33-37. The first argument lists the pairs of
`it.product` still to come. -/
def advance : List (Nat × Nat) → List Nat → IterM Nat
  | ps, r :: rs => do
    Py.modify fun s => { s with gen := some (ps, rs) }
    pure r
  | [], [] => do
    Py.modify fun s => { s with gen := some ([], []) }
    Py.raise .stopIteration
  | (r, t) :: ps, [] => do
    let k ← tick
    let rs ← onHeap (S.strategy.compute S.env S.onlyFeasible k r [t])
    match rs with
    | [] => advance ps []
    | r' :: rs => do
      Py.modify fun s => { s with gen := some (ps, rs) }
      pure r'

/-- The cached generator `iterator`: a new one when the entry was flushed. `it.product` reads both sets when the
generator starts. -/
def openGenerator : IterM (List (Nat × Nat) × List Nat) := do
  let s ← Py.read
  match s.gen with
  | some g => pure g
  | none => do
    let a ← attractiveRoutes S
    let a ← ordered S a
    let ts ← ordered S s.pending
    pure (a.flatMap fun r => ts.map fun t => (r, t), [])

/-- `StatelessInsertionIterator.__next__`, iterators/stateless.py:39-40. -/
def nextStateless : IterM Nat := do
  let (ps, rs) ← openGenerator S
  advance S ps rs

/-- `*self.iterator`: everything the generator still yields. -/
def drain : List (Nat × Nat) → List Nat → IterM (List Nat)
  | [], rs => do
    Py.modify fun s => { s with gen := some ([], []) }
    pure rs
  | (r, t) :: ps, rs => do
    let k ← tick
    let rs' ← onHeap (S.strategy.compute S.env S.onlyFeasible k r [t])
    drain ps (rs ++ rs')

/-- `BestStatelessInsertionIterator.__next__`, iterators/stateless.py:57-64. `nbest(n, *candidates)` has two
positional parameters after `self` and the third, `inplace`: with no candidate a parameter is missing; with two, the
second is taken for `inplace`; with more there are too many. Whenever the call succeeds, `heapq` iterates over the
first candidate, a `Route`, whose `__iter__` (jinete/models/routes.py:228-232) yields pairs of a name and a value;
scoring the first of them fails. With `n = 0` nothing is scored and nothing is selected. -/
def nextBestStateless : IterM Nat := do
  let (ps, rs) ← openGenerator S
  let cand ← drain S ps rs
  match cand with
  | [] => Py.raise .typeError
  | [_] | [_, _] => if S.randomized = 0 then Py.raise .stopIteration else Py.raise .attributeError
  | _ => Py.raise .typeError

/-! ## The algorithm -/

/-- `for x in iterator` asks `__next__` and stops at `StopIteration`. -/
def catchStop {σ α : Type} (m : Py σ α) : Py σ (Option α) := fun s =>
  match m s with
  | (.ok a, s') => (.ok (some a), s')
  | (.error .stopIteration, s') => (.ok none, s')
  | (.error e, s') => (.error e, s')

/-- The loop of `InsertionAlgorithm._optimize`, algorithm.py:46-49. It runs with fuel. -/
def insertionLoop (next : IterM Nat) (mark : Nat → IterM Unit) : Nat → IterM Unit
  | 0 => Py.raise .outOfFuel
  | n + 1 => do
    match ← catchStop next with
    | none => pure ()
    | some r => do
      let b ← onHeap (routeFeasible S.env r)
      if b then do
        setRoute mark r
        insertionLoop next mark n
      else pure ()

/-- `InsertionAlgorithm._optimize` with the ranking iterator, algorithm.py:37-52. `initial` are the routes of the
initial result, if any. -/
def insertionAlgorithm (initial : Option (List Nat)) (fuel : Nat) : IterM (List Nat) := do
  rankingInit S initial
  insertionLoop S (nextRanked S) (markRanked S) fuel
  iterRoutes S

/-- The same with `StatelessInsertionIterator`. -/
def statelessAlgorithm (initial : Option (List Nat)) (fuel : Nat) : IterM (List Nat) := do
  iteratorInit S initial
  insertionLoop S (nextStateless S) markStateless fuel
  iterRoutes S

end Jinete
