import Verif.Model.Heap

/-!
# jinete/models/stops.py
-/

set_option autoImplicit false

namespace Jinete

variable (E : Env)

/-- The trip of a planned trip (`planned_trip.trip`). -/
def ptTrip (c : Core) (p : Nat) : Trip := E.trip (c.pt p).trip

/-- `Stop.earliest`, jinete/models/stops.py:189-197. -/
def stopEarliest (c : Core) (s : Nat) : ℚ :=
  maxD 0 (((c.stop s).pickups.map fun p => (ptTrip E c p).originEarliest) ++
    ((c.stop s).deliveries.map fun p => (ptTrip E c p).destinationEarliest E.metric))

/-- `Stop.latest`, jinete/models/stops.py:199-207. -/
def stopLatest (c : Core) (s : Nat) : Bound :=
  minBound (((c.stop s).pickups.map fun p => (ptTrip E c p).originLatest E.metric) ++
    ((c.stop s).deliveries.map fun p => (ptTrip E c p).destinationLatest))

/-- `Stop.load_time`, jinete/models/stops.py:209-217. -/
def stopLoadTime (c : Core) (s : Nat) : ℚ :=
  maxD 0 (((c.stop s).pickups.map fun p => (ptTrip E c p).origin.duration) ++
    ((c.stop s).deliveries.map fun p => (ptTrip E c p).destination.duration))

/-- `Stop.previous_position`, jinete/models/stops.py:143-147. -/
def stopPrevPosition (c : Core) (s : Nat) : Pos :=
  match (c.stop s).previous with
  | none => (E.vehicle (c.stop s).vehicle).origin.position
  | some p => (c.stop p).position

/-- `Stop.distance`, jinete/models/stops.py:149-151 (from this stop back to the previous one). -/
def stopDistance (c : Core) (s : Nat) : ℚ :=
  E.metric (c.stop s).position (stopPrevPosition E c s)

/-- `Stop.trips`, jinete/models/stops.py:94-96 (identities of the trips of `planned_trips`, 89-92). -/
def stopTrips (c : Core) (s : Nat) : List Nat :=
  ((c.stop s).pickups ++ (c.stop s).deliveries).map fun p => (c.pt p).trip

/-- `Stop.previous_departure_time`, jinete/models/stops.py:157-161, given how to read
`departure_time` of another stop. -/
def prevDepartureWith (dep : Nat → M ℚ) (s : Nat) : M ℚ := do
  let h ← Py.read
  match (h.core.stop s).previous with
  | none => pure (E.vehicle (h.core.stop s).vehicle).origin.earliest
  | some p => dep p

/-- `Stop.transit_time`, jinete/models/stops.py:163-165: evaluates `previous_departure_time` for the
(ignored) `now` argument. -/
def transitTimeWith (dep : Nat → M ℚ) (s : Nat) : M ℚ := do
  let h ← Py.read
  let _now ← prevDepartureWith E dep s
  pure (E.metric (stopPrevPosition E h.core s) (h.core.stop s).position)

/-- `Stop.arrival_time` (cached), jinete/models/stops.py:153-155. -/
def arrivalWith (dep : Nat → M ℚ) (s : Nat) : M ℚ := do
  let h ← Py.read
  match h.arr s with
  | some v => pure v
  | none =>
    let pd ← prevDepartureWith E dep s
    let tt ← transitTimeWith E dep s
    Py.modify fun h => { h with arr := Function.update h.arr s (some (pd + tt)) }
    pure (pd + tt)

/-- `Stop.starting_time` getter, jinete/models/stops.py:177-182. -/
def startingWith (dep : Nat → M ℚ) (s : Nat) : M ℚ := do
  let h ← Py.read
  match (h.core.stop s).start with
  | some v =>
    let a ← arrivalWith E dep s
    pure (max (max v (stopEarliest E h.core s)) a)
  | none =>
    let v ← arrivalWith E dep s
    let a ← arrivalWith E dep s
    pure (max (max v (stopEarliest E h.core s)) a)

/-- `Stop.departure_time` (cached), jinete/models/stops.py:173-175, with a bound on the recursion depth
along `previous`. -/
def departureF : Nat → Nat → M ℚ
  | 0, _ => Py.raise .recursionError
  | n + 1, s => do
    let h ← Py.read
    match h.dep s with
    | some v => pure v
    | none =>
      let st ← startingWith E (departureF n) s
      let v := st + stopLoadTime E h.core s
      Py.modify fun h => { h with dep := Function.update h.dep s (some v) }
      pure v

/-- The depth that always suffices for an acyclic chain: one more than the number of stops created. -/
def Heap.fuel (h : Heap) : Nat := h.core.nStop + 1

/-- `stop.departure_time`. -/
def departure (s : Nat) : M ℚ := fun h => departureF E h.fuel s h
/-- `stop.arrival_time`. -/
def arrival (s : Nat) : M ℚ := fun h => arrivalWith E (departureF E h.fuel) s h
/-- `stop.starting_time`. -/
def starting (s : Nat) : M ℚ := fun h => startingWith E (departureF E h.fuel) s h
/-- `stop.transit_time`. -/
def transitTime (s : Nat) : M ℚ := fun h => transitTimeWith E (departureF E h.fuel) s h

/-- `Stop.waiting_time`, jinete/models/stops.py:167-171. -/
def waitingTime (s : Nat) : M ℚ := do
  let st ← starting E s
  let a ← arrival E s
  Py.assert (decide (st - a ≥ 0 - errorBound))
  pure (st - a)

/-- `sum(trip.capacity for trip in l)` over planned trips. -/
def sumCapacity (c : Core) (l : List Nat) : ℚ := (l.map fun p => (ptTrip E c p).capacity).sum

/-- `Stop.previous_capacity`, jinete/models/stops.py:106-110, given how to read `capacity` of another
stop. -/
def prevCapacityWith (cap : Nat → M ℚ) (s : Nat) : M ℚ := do
  let h ← Py.read
  match (h.core.stop s).previous with
  | none => pure 0
  | some p => cap p

/-- `Stop.capacity` (cached), jinete/models/stops.py:98-104. The value is stored only if the assertion
passes. -/
def capacityF : Nat → Nat → M ℚ
  | 0, _ => Py.raise .recursionError
  | n + 1, s => do
    let h ← Py.read
    match h.cap s with
    | some v => pure v
    | none =>
      let pc ← prevCapacityWith (capacityF n) s
      let v := pc + sumCapacity E h.core (h.core.stop s).pickups - sumCapacity E h.core (h.core.stop s).deliveries
      Py.assert (decide (0 ≤ v))
      Py.modify fun h => { h with cap := Function.update h.cap s (some v) }
      pure v

/-- `stop.capacity`. -/
def capacity (s : Nat) : M ℚ := fun h => capacityF E h.fuel s h

/-- `Stop.all_previous`, jinete/models/stops.py:112-116. -/
def allPreviousF : Nat → Nat → M (List Nat)
  | 0, _ => Py.raise .recursionError
  | n + 1, s => do
    let h ← Py.read
    match (h.core.stop s).previous with
    | none => pure []
    | some p => do
      let l ← allPreviousF n p
      pure (p :: l)

/-- `stop.all_previous`. -/
def allPrevious (s : Nat) : M (List Nat) := fun h => allPreviousF h.fuel s h

/-- `Stop.append_pickup`, jinete/models/stops.py:122-124. Adding to a set is a no-op if present. -/
def appendPickup (s p : Nat) : M Unit := do
  let h ← Py.read
  Py.assert (decide ((ptTrip E h.core p).origin.position = (h.core.stop s).position))
  Py.modify fun h => h.setStop s { h.core.stop s with pickups := (h.core.stop s).pickups.insert p }

/-- `Stop.append_delivery`, jinete/models/stops.py:126-128. -/
def appendDelivery (s p : Nat) : M Unit := do
  let h ← Py.read
  Py.assert (decide ((ptTrip E h.core p).destination.position = (h.core.stop s).position))
  Py.modify fun h => h.setStop s { h.core.stop s with deliveries := (h.core.stop s).deliveries.insert p }

/-- `Stop.feasible` (cached), jinete/models/stops.py:130-141. Every exit stores its value. -/
def stopFeasible (s : Nat) : M Bool := do
  let h ← Py.read
  match h.sfeas s with
  | some b => pure b
  | none =>
    let b ← body
    Py.modify fun h => { h with sfeas := Function.update h.sfeas s (some b) }
    pure b
where
  /-- the body of the property -/
  body : M Bool := do
    let h ← Py.read
    let st ← starting E s
    if ¬ (stopEarliest E h.core s ≤ st + errorBound) then pure false
    else do
      let st ← starting E s
      if ¬ (((stopLatest E h.core s).addQ errorBound).leQ st = true) then pure false
      else do
        let c ← capacity E s
        if ¬ (c ≤ (E.vehicle (h.core.stop s).vehicle).capacity + errorBound) then pure false
        else pure true

/-- `PlannedTrip.flush`, jinete/models/planned_trips.py:154-156. -/
def flushPt (h : Heap) (p : Nat) : Heap := { h with pfeas := Function.update h.pfeas p none }

/-- `Stop.flush`, jinete/models/stops.py:225-233: drops `arrival_time`, `departure_time` and `capacity`
(not `feasible`) and flushes the planned trips of the stop. -/
def flushStop (h : Heap) (s : Nat) : Heap :=
  ((h.core.stop s).pickups ++ (h.core.stop s).deliveries).foldl flushPt
    { h with
      arr := Function.update h.arr s none
      dep := Function.update h.dep s none
      cap := Function.update h.cap s none }

/-- `for stop in l: stop.flush()`. -/
def flushStops (h : Heap) (l : List Nat) : Heap := l.foldl flushStop h

/-- `Stop.starting_time` setter, jinete/models/stops.py:184-187. -/
def setStarting (s : Nat) (v : ℚ) : M Unit :=
  Py.modify fun h => flushStop (h.setStop s { h.core.stop s with start := some v }) s

/-- `Stop.flush_all_previous`, jinete/models/stops.py:235-238. -/
def flushAllPreviousF : Nat → Nat → M Unit
  | 0, _ => Py.raise .recursionError
  | n + 1, s => do
    Py.modify fun h => flushStop h s
    let h ← Py.read
    match (h.core.stop s).previous with
    | none => pure ()
    | some p => flushAllPreviousF n p

end Jinete
