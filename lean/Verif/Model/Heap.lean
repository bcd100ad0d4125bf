import Verif.Model.Trip

/-!
# The object heap

`Stop` (jinete/models/stops.py), `PlannedTrip` (jinete/models/planned_trips.py) and `Route`
(jinete/models/routes.py) are mutable objects compared by identity. They are numbered; a number is an
identity. `Core` holds their attributes, the other fields of `Heap` are the entries that
`cached_property` writes to each instance's `__dict__`.
-/

set_option autoImplicit false

namespace Jinete

/-- Attributes of a `Stop`, jinete/models/stops.py:40-77. The sets `pickup_planned_trips` and
`delivery_planned_trips` are lists (any iteration order). -/
structure StopCore where
  vehicle : Nat
  position : Pos
  previous : Option Nat
  pickups : List Nat
  deliveries : List Nat
  /-- `_starting_time` -/
  start : Option ℚ
  deriving DecidableEq

/-- Attributes of a `PlannedTrip`, jinete/models/planned_trips.py:39-57. -/
structure PtCore where
  vehicle : Nat
  trip : Nat
  pickup : Option Nat
  delivery : Option Nat
  deriving DecidableEq

/-- Attributes of a `Route`, jinete/models/routes.py:57-78. -/
structure RouteCore where
  vehicle : Nat
  stops : List Nat
  deriving DecidableEq

/-- All attributes of all objects; objects with a number below the counter have been created. -/
structure Core where
  stop : Nat → StopCore
  nStop : Nat
  pt : Nat → PtCore
  nPt : Nat
  route : Nat → RouteCore
  nRoute : Nat

/-- The heap: attributes and memoised values. -/
structure Heap where
  core : Core
  /-- `Stop.arrival_time` -/
  arr : Nat → Option ℚ
  /-- `Stop.departure_time` -/
  dep : Nat → Option ℚ
  /-- `Stop.capacity` -/
  cap : Nat → Option ℚ
  /-- `Stop.feasible` -/
  sfeas : Nat → Option Bool
  /-- `PlannedTrip.feasible` -/
  pfeas : Nat → Option Bool
  /-- `Route.feasible` -/
  rfeas : Nat → Option Bool

/-- Methods on the heap. -/
abbrev M := Py Heap

/-- The heap before any object exists. -/
def Heap.empty : Heap where
  core := {
    stop := fun _ => ⟨0, [], none, [], [], none⟩, nStop := 0
    pt := fun _ => ⟨0, 0, none, none⟩, nPt := 0
    route := fun _ => ⟨0, []⟩, nRoute := 0 }
  arr := fun _ => none
  dep := fun _ => none
  cap := fun _ => none
  sfeas := fun _ => none
  pfeas := fun _ => none
  rfeas := fun _ => none

namespace Heap

/-- Overwrite the attributes of stop `s`. -/
def setStop (h : Heap) (s : Nat) (x : StopCore) : Heap :=
  { h with core := { h.core with stop := Function.update h.core.stop s x } }

/-- Overwrite the attributes of planned trip `p`. -/
def setPt (h : Heap) (p : Nat) (x : PtCore) : Heap :=
  { h with core := { h.core with pt := Function.update h.core.pt p x } }

/-- Overwrite the attributes of route `r`. -/
def setRoute (h : Heap) (r : Nat) (x : RouteCore) : Heap :=
  { h with core := { h.core with route := Function.update h.core.route r x } }

/-- A fresh stop with empty `__dict__`. -/
def allocStop (h : Heap) (x : StopCore) : Heap :=
  { h with
    core := { h.core with stop := Function.update h.core.stop h.core.nStop x, nStop := h.core.nStop + 1 }
    arr := Function.update h.arr h.core.nStop none
    dep := Function.update h.dep h.core.nStop none
    cap := Function.update h.cap h.core.nStop none
    sfeas := Function.update h.sfeas h.core.nStop none }

/-- A fresh planned trip with empty `__dict__`. -/
def allocPt (h : Heap) (x : PtCore) : Heap :=
  { h with
    core := { h.core with pt := Function.update h.core.pt h.core.nPt x, nPt := h.core.nPt + 1 }
    pfeas := Function.update h.pfeas h.core.nPt none }

/-- A fresh route with empty `__dict__`. -/
def allocRoute (h : Heap) (x : RouteCore) : Heap :=
  { h with
    core := { h.core with route := Function.update h.core.route h.core.nRoute x, nRoute := h.core.nRoute + 1 }
    rfeas := Function.update h.rfeas h.core.nRoute none }

end Heap

/-- `Stop(vehicle, position, previous, starting_time=...)`, jinete/models/stops.py:55-77, with empty
pickup and delivery sets. Returns the new object. -/
def newStop (vehicle : Nat) (position : Pos) (previous : Option Nat) (start : Option ℚ := none) : M Nat :=
  fun h => (.ok h.core.nStop, h.allocStop ⟨vehicle, position, previous, [], [], start⟩)

end Jinete
