import Verif.Model.Route

/-!
# `RouteCloner`, jinete/models/routes.py:300-376
-/

set_option autoImplicit false

namespace Jinete

variable (E : Env)

/-- `mapper : Dict[PlannedTrip, PlannedTrip]`; the most recent binding of a key comes first. -/
abbrev Mapper := List (Nat × Nat)

/-- The inner loop of `RouteCloner._initialize`, jinete/models/routes.py:335-336: a new planned trip
without pickup and delivery for every delivery of the stop. -/
def clonerMapStop : List Nat → Mapper → M Mapper
  | [], m => pure m
  | p :: l, m => do
    let h ← Py.read
    let q ← newPlannedTrip E (h.core.pt p).vehicle (h.core.pt p).trip none none
    clonerMapStop l ((p, q) :: m)

/-- `(mismatches | deliveries) - pickups`, jinete/models/routes.py:338. -/
def mismatchStep (mis deliveries pickups : List Nat) : List Nat :=
  (mis ∪ deliveries).filter fun p => !pickups.contains p

/-- The `while` loop of `RouteCloner._initialize`, jinete/models/routes.py:332-338, with the current
`idx` as recursion argument. Returns the final `idx`, `mapper` and `mismatches`. -/
def clonerLoop (stops : List Nat) (desired : Nat) : Nat → Mapper → List Nat → M (Nat × Mapper × List Nat)
  | 0, m, mis => pure (0, m, mis)
  | idx + 1, m, mis =>
    if !mis.isEmpty || !decide (idx + 1 < desired) then do
      let s ← Py.index stops idx
      let h ← Py.read
      let m' ← clonerMapStop E (h.core.stop s).deliveries m
      clonerLoop stops desired idx m' (mismatchStep mis (h.core.stop s).deliveries (h.core.stop s).pickups)
    else pure (idx + 1, m, mis)

/-- `RouteCloner._initialize`, jinete/models/routes.py:328-343. -/
def clonerInit (r desired : Nat) : M (Nat × Mapper) := do
  let l ← routeStops r
  let (idx, m, mis) ← clonerLoop E l desired l.length [] []
  let idx := if idx = 1 then 0 else idx
  Py.assert mis.isEmpty
  pure (idx, m)

/-- `RouteCloner.map_pickup`, jinete/models/routes.py:345-348. -/
def mapPickup (m : Mapper) (s p : Nat) : M Nat := do
  let q ← Py.unwrap .keyError (m.lookup p)
  Py.modify fun h => h.setPt q { h.core.pt q with pickup := some s }
  pure q

/-- `RouteCloner.map_delivery`, jinete/models/routes.py:350-353. -/
def mapDelivery (m : Mapper) (s p : Nat) : M Nat := do
  let q ← Py.unwrap .keyError (m.lookup p)
  Py.modify fun h => h.setPt q { h.core.pt q with delivery := some s }
  pure q

/-- The body of the loop of `RouteCloner.clone`, jinete/models/routes.py:359-371: copy one stop after
the stop `prev`. -/
def cloneStop (m : Mapper) (prev : Option Nat) (s : Nat) : M Nat := do
  let h ← Py.read
  let n ← newStop (h.core.stop s).vehicle (h.core.stop s).position prev (h.core.stop s).start
  let ps ← Py.mapEach (h.core.stop s).pickups (mapPickup m n)
  Py.modify fun h => h.setStop n { h.core.stop n with pickups := ps }
  let ds ← Py.mapEach (h.core.stop s).deliveries (mapDelivery m n)
  Py.modify fun h => h.setStop n { h.core.stop n with deliveries := ds }
  pure n

/-- The loop of `RouteCloner.clone`, jinete/models/routes.py:358-373. Returns the new stops. -/
def cloneStops (m : Mapper) : Option Nat → List Nat → M (List Nat)
  | _, [] => pure []
  | prev, s :: l => do
    let n ← cloneStop m prev s
    let ns ← cloneStops m (some n) l
    pure (n :: ns)

/-- `RouteCloner(route, desired).clone()`, jinete/models/routes.py:355-376. Returns the new route and
the threshold `cloner.idx`. -/
def cloneRouteIdx (r desired : Nat) : M (Nat × Nat) := do
  let (idx, m) ← clonerInit E r desired
  let l ← routeStops r
  let h ← Py.read
  let shared := l.take idx
  let fresh ← cloneStops m shared.getLast? (l.drop idx)
  let r' ← newRouteWith (h.core.route r).vehicle (shared ++ fresh)
  pure (r', idx)

/-- `Route.clone(idx)`, jinete/models/routes.py:90-92. -/
def cloneRoute (r desired : Nat) : M Nat := do
  let (r', _) ← cloneRouteIdx E r desired
  pure r'

end Jinete
