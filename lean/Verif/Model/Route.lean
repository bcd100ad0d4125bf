import Verif.Model.Stop

/-!
# jinete/models/planned_trips.py and jinete/models/routes.py
-/

set_option autoImplicit false

namespace Jinete

variable (E : Env)

/-! ## PlannedTrip -/

/-- `if x is not None: f(x)`. -/
def ifSome (o : Option Nat) (f : Nat → M Unit) : M Unit :=
  match o with
  | some s => f s
  | none => pure ()

/-- `PlannedTrip.__init__`, jinete/models/planned_trips.py:52-62. -/
def newPlannedTrip (vehicle trip : Nat) (pickup delivery : Option Nat) : M Nat := do
  let h ← Py.read
  Py.modify fun h => h.allocPt ⟨vehicle, trip, pickup, delivery⟩
  ifSome pickup fun s => appendPickup E s h.core.nPt
  ifSome delivery fun s => appendDelivery E s h.core.nPt
  pure h.core.nPt

/-- `self.pickup`, raising `AttributeError` on use when it is `None`. -/
def ptPickup (p : Nat) : M Nat := do
  let h ← Py.read
  Py.unwrap .attributeError (h.core.pt p).pickup

/-- `self.delivery`, raising `AttributeError` on use when it is `None`. -/
def ptDelivery (p : Nat) : M Nat := do
  let h ← Py.read
  Py.unwrap .attributeError (h.core.pt p).delivery

/-- `PlannedTrip.pickup_time`, jinete/models/planned_trips.py:64-66. -/
def pickupTime (p : Nat) : M ℚ := do departure E (← ptPickup p)

/-- `PlannedTrip.delivery_time`, jinete/models/planned_trips.py:68-70. -/
def deliveryTime (p : Nat) : M ℚ := do starting E (← ptDelivery p)

/-- `PlannedTrip.duration`, jinete/models/planned_trips.py:114-116. -/
def ptDuration (p : Nat) : M ℚ := do
  let d ← deliveryTime E p
  let u ← pickupTime E p
  pure (d - u)

/-- `PlannedTrip.feasible` (cached), jinete/models/planned_trips.py:122-136. A failing assertion stores
nothing. -/
def ptFeasible (p : Nat) : M Bool := do
  let h ← Py.read
  match h.pfeas p with
  | some b => pure b
  | none =>
    let b ← body
    Py.modify fun h => { h with pfeas := Function.update h.pfeas p (some b) }
    pure b
where
  /-- the body of the property -/
  body : M Bool := do
    let d ← ptDelivery p
    let prev ← allPrevious d
    let h ← Py.read
    Py.assert (decide (∃ u ∈ (h.core.pt p).pickup, u ∈ prev))
    let pt ← pickupTime E p
    let dt ← deliveryTime E p
    Py.assert (decide (pt ≤ dt))
    let u ← ptPickup p
    let b ← stopFeasible E u
    if ¬ b then pure false
    else do
      let d ← ptDelivery p
      let b ← stopFeasible E d
      if ¬ b then pure false
      else do
        let dur ← ptDuration E p
        let h ← Py.read
        if ¬ (((ptTrip E h.core p).timeout.addQ errorBound).leQ dur = true) then pure false
        else pure true

/-! ## Route -/

/-- `Route.__init__`, jinete/models/routes.py:66-78, without `stops`: two fresh depot stops. -/
def newRoute (vehicle : Nat) : M Nat := do
  let first ← newStop vehicle (E.vehicle vehicle).origin.position none
  let last ← newStop vehicle (E.vehicle vehicle).destination.position (some first)
  let h ← Py.read
  Py.modify fun h => h.allocRoute ⟨vehicle, [first, last]⟩
  pure h.core.nRoute

/-- `Route.__init__` with `stops`, jinete/models/routes.py:77-78. -/
def newRouteWith (vehicle : Nat) (stops : List Nat) : M Nat := do
  let h ← Py.read
  Py.modify fun h => h.allocRoute ⟨vehicle, stops⟩
  pure h.core.nRoute

/-- `Route.pickups` = `Route.planned_trips`, jinete/models/routes.py:98-104. -/
def routePlannedTrips (c : Core) (r : Nat) : List Nat :=
  (c.route r).stops.flatMap fun s => (c.stop s).pickups

/-- `Route.trips`, jinete/models/routes.py:150-152. -/
def routeTrips (c : Core) (r : Nat) : List Nat :=
  (routePlannedTrips c r).map fun p => (c.pt p).trip

/-- `Route.loaded`, jinete/models/routes.py:146-148 (`any` over truthy objects). -/
def routeLoaded (c : Core) (r : Nat) : Bool := !(routePlannedTrips c r).isEmpty

/-- `Route.loaded_trips`, jinete/models/routes.py:154-160. -/
def routeLoadedTrips (c : Core) (r : Nat) : List Nat :=
  (routeTrips c r).filter fun t => !(E.trip t).empty

/-- `Route.distance`, jinete/models/routes.py:218-220. -/
def routeDistance (c : Core) (r : Nat) : ℚ := ((c.route r).stops.map fun s => stopDistance E c s).sum

/-- `self.stops`. -/
def routeStops (r : Nat) : M (List Nat) := do
  let h ← Py.read
  pure (h.core.route r).stops

/-- `Route.first_stop`, jinete/models/routes.py:166-170. -/
def firstStop (r : Nat) : M Nat := do
  let l ← routeStops r
  let s ← Py.index l 0
  let h ← Py.read
  Py.assert (h.core.stop s).previous.isNone
  pure s

/-- `Route.last_stop`, jinete/models/routes.py:176-179 (`stops[-1]`). -/
def lastStop (r : Nat) : M Nat := do
  let l ← routeStops r
  Py.unwrap .indexError l.getLast?

/-- `Route.duration`, jinete/models/routes.py:206-208 (with 172-174 and 181-183). -/
def routeDuration (r : Nat) : M ℚ := do
  let ld ← departure E (← lastStop r)
  let fd ← departure E (← firstStop r)
  pure (ld - fd)

/-- `Route.transit_time`, jinete/models/routes.py:210-212. -/
def routeTransitTime (r : Nat) : M ℚ := do
  let h ← Py.read
  let l ← Py.mapEach (routePlannedTrips h.core r) (ptDuration E)
  pure l.sum

/-- `Route.waiting_time`, jinete/models/routes.py:214-216. -/
def routeWaitingTime (r : Nat) : M ℚ := do
  let l ← Py.mapEach (← routeStops r) (waitingTime E)
  pure l.sum

/-- `Route.feasible_planned_trips`, jinete/models/routes.py:118-120: `reduce(and_, ..., True)` evaluates
every planned trip. -/
def feasiblePlannedTrips (r : Nat) : M Bool := do
  let h ← Py.read
  let l ← Py.mapEach (routePlannedTrips h.core r) (ptFeasible E)
  pure (l.foldl (fun a b => a && b) true)

/-- `Route.feasible` (cached), jinete/models/routes.py:122-136. -/
def routeFeasible (r : Nat) : M Bool := do
  let h ← Py.read
  match h.rfeas r with
  | some b => pure b
  | none =>
    let b ← body
    Py.modify fun h => { h with rfeas := Function.update h.rfeas r (some b) }
    pure b
where
  /-- the body of the property -/
  body : M Bool := do
    let h ← Py.read
    let v := E.vehicle (h.core.route r).vehicle
    let first ← firstStop r
    if ¬ ((h.core.stop first).position = v.origin.position) then pure false
    else do
      let first ← firstStop r
      let a ← arrival E first
      if ¬ (v.origin.earliest - errorBound ≤ a) then pure false
      else do
        let last ← lastStop r
        if ¬ ((h.core.stop last).position = v.destination.position) then pure false
        else do
          let ld ← departure E (← lastStop r)
          if ¬ ((v.destination.latest.addQ errorBound).leQ ld = true) then pure false
          else do
            let dur ← routeDuration E r
            if ¬ ((v.timeout.addQ errorBound).leQ dur = true) then pure false
            else do
              let b ← feasiblePlannedTrips E r
              if ¬ b then pure false else pure true

/-- `Route.flush`, jinete/models/routes.py:138-144. -/
def flushRoute (r : Nat) : M Unit :=
  Py.modify fun h =>
    let h := { h with rfeas := Function.update h.rfeas r none }
    let h := flushStops h (h.core.route r).stops
    (routePlannedTrips h.core r).foldl flushPt h

/-- `Route.insert_stop_at`, jinete/models/routes.py:244-257. `self.stops[idx] or None` raises
`IndexError` when `idx` is out of range and is otherwise the stop (objects are truthy). The loop
variable `stop` shadows the parameter, so the *last* stop of the route is returned. Only called with
`idx >= 0`. -/
def insertStopAt (r idx : Nat) (s : Nat) : M Nat := do
  let l ← routeStops r
  let following ← Py.index l idx
  let h ← Py.read
  Py.assert ((h.core.stop s).pickups.all fun p => !(h.core.stop s).deliveries.contains p)
  Py.modify fun h => h.setStop following { h.core.stop following with previous := some s }
  Py.modify fun h => h.setRoute r { h.core.route r with stops := (h.core.route r).stops.insertIdx idx s }
  let h ← Py.read
  let tail := (h.core.route r).stops.drop idx
  Py.modify fun h => flushStops h tail
  pure (tail.getLast?.getD s)

/-- `self.stops[idx - 1]`, jinete/models/routes.py:260: with `idx = 0` Python reads `self.stops[-1]`,
the last stop. -/
def indexPred (l : List Nat) (idx : Nat) : M Nat :=
  match idx with
  | 0 => Py.unwrap .indexError l.getLast?
  | i + 1 => Py.index l i

/-- `Route.remove_stop_at`, jinete/models/routes.py:259-270. -/
def removeStopAt (r idx : Nat) : M Nat := do
  let l ← routeStops r
  let prev ← indexPred l idx
  let following ← Py.index l (idx + 1)
  Py.modify fun h => h.setStop following { h.core.stop following with previous := some prev }
  let removed ← Py.index l idx
  Py.modify fun h => h.setRoute r { h.core.route r with stops := (h.core.route r).stops.eraseIdx idx }
  let h ← Py.read
  Py.modify fun h' => flushStops h' ((h.core.route r).stops.drop idx)
  pure removed

/-- `Route.insert_stop`, jinete/models/routes.py:234-242. -/
def insertStop (r : Nat) (s : Nat) : M Nat := do
  let h ← Py.read
  match (h.core.stop s).previous with
  | none => do
    let _ ← removeStopAt r 0
    insertStopAt r 0 s
  | some p =>
    let l := (h.core.route r).stops
    if p ∈ l then insertStopAt r (l.idxOf p + 1) s
    else Py.raise .previousStopNotInRoute

/-- `all(s1 == s2.previous for s1, s2 in zip(self.stops[:-1], self.stops[1:]))`,
jinete/models/routes.py:275, 281, 296. -/
def linkedCheck (c : Core) : List Nat → Bool
  | s1 :: s2 :: l => decide ((c.stop s2).previous = some s1) && linkedCheck c (s2 :: l)
  | _ => true

/-- `all(s1.departure_time <= s2.arrival_time for s1, s2 in zip(self.stops[:-1], self.stops[1:]))`,
jinete/models/routes.py:276, 282, 297 (`all` stops at the first failure). -/
def timesCheck : List Nat → M Bool
  | s1 :: s2 :: l => do
    let d ← departure E s1
    let a ← arrival E s2
    if d ≤ a then timesCheck (s2 :: l) else pure false
  | _ => pure true

/-- `Route.append_planned_trip`, jinete/models/routes.py:272-283. -/
def appendPlannedTrip (r p : Nat) : M Unit := do
  let h ← Py.read
  Py.assert (h.core.pt p).delivery.isSome
  Py.assert (h.core.pt p).pickup.isSome
  Py.assert (linkedCheck h.core (h.core.route r).stops)
  let b ← timesCheck E (h.core.route r).stops
  Py.assert b
  let _ ← insertStop r (← ptPickup p)
  let _ ← insertStop r (← ptDelivery p)
  let h ← Py.read
  Py.assert (linkedCheck h.core (h.core.route r).stops)
  let b ← timesCheck E (h.core.route r).stops
  Py.assert b

/-- The loop of `Route.remove_trip`, jinete/models/routes.py:289-293: indices `n-1, ..., 0`. -/
def removeTripLoop (r t : Nat) : Nat → M Unit
  | 0 => pure ()
  | i + 1 => do
    let l ← routeStops r
    let s ← Py.index l i
    let h ← Py.read
    if t ∈ stopTrips h.core s then do
      let _ ← removeStopAt r i
      removeTripLoop r t i
    else removeTripLoop r t i

/-- `Route.remove_trip`, jinete/models/routes.py:285-297. -/
def removeTrip (r t : Nat) : M Unit := do
  let l ← routeStops r
  removeTripLoop r t l.length
  let l' ← routeStops r
  Py.assert (decide ((l.length : Int) - 2 = l'.length))
  let h ← Py.read
  Py.assert (linkedCheck h.core l')
  let b ← timesCheck E l'
  Py.assert b

end Jinete
