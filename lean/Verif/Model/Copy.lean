import Verif.Model.Route

/-!
# Deep copies of routes

`Route.__deepcopy__` (jinete/models/routes.py:80-88), `Planning.__deepcopy__` (jinete/models/plannings.py:82-88)
and the default deep copy of `Stop` and `PlannedTrip`. `Vehicle`, `Trip`, `Position`, `Service`, `Job` and `Fleet`
return themselves (jinete/models/vehicles.py:102-103 and 115-116, trips.py:163-164, positions.py:78-79,
services.py:80-81, jobs.py:58-59).
-/

set_option autoImplicit false

namespace Jinete

/-- The copy of a stop: the default deep copy also copies the entries of `cached_property`. -/
def StopCore.moved (x : StopCore) (ds dp : Nat) : StopCore :=
  { x with
    previous := x.previous.map (· + ds)
    pickups := x.pickups.map (· + dp)
    deliveries := x.deliveries.map (· + dp) }

/-- The copy of a planned trip. -/
def PtCore.moved (x : PtCore) (ds : Nat) : PtCore :=
  { x with pickup := x.pickup.map (· + ds), delivery := x.delivery.map (· + ds) }

/-- The copy of a route. -/
def RouteCore.moved (x : RouteCore) (ds : Nat) : RouteCore := { x with stops := x.stops.map (· + ds) }

/-- A table in which number `n + k` repeats number `k`, for every `k < n`. -/
def repeated {α : Type} (n : Nat) (f g : Nat → α) : Nat → α :=
  fun k => if k < n then f k else if k < n + n then g (k - n) else f k

/-- The heap after a deep copy: the copy of object `k` is object `n + k`, where `n` objects of its kind existed.
Simplifications: objects that are not reachable from the copied routes are copied as well (nobody refers to those
copies), the two stops that `Route(vehicle)` creates and `route.stops = ...` discards are left out, and Python's
recursion limit is not modelled. A copied route is a new `Route`, so it has no memoised verdict, whereas stops and
planned trips keep theirs. -/
def Heap.double (h : Heap) : Heap where
  core := {
    stop := repeated h.core.nStop h.core.stop fun s => (h.core.stop s).moved h.core.nStop h.core.nPt
    nStop := h.core.nStop + h.core.nStop
    pt := repeated h.core.nPt h.core.pt fun p => (h.core.pt p).moved h.core.nStop
    nPt := h.core.nPt + h.core.nPt
    route := repeated h.core.nRoute h.core.route fun r => (h.core.route r).moved h.core.nStop
    nRoute := h.core.nRoute + h.core.nRoute }
  arr := repeated h.core.nStop h.arr h.arr
  dep := repeated h.core.nStop h.dep h.dep
  cap := repeated h.core.nStop h.cap h.cap
  sfeas := repeated h.core.nStop h.sfeas h.sfeas
  pfeas := repeated h.core.nPt h.pfeas h.pfeas
  rfeas := repeated h.core.nRoute h.rfeas fun _ => none

/-- `deepcopy(routes)` for a set of routes. -/
def deepcopyRoutes (routes : List Nat) : M (List Nat) :=
  fun h => (.ok (routes.map (· + h.core.nRoute)), h.double)

end Jinete
