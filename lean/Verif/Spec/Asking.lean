import Verif.Model.Objective
import Verif.Spec.RouteState

/-!
# What can be asked about the objects of some routes
-/

set_option autoImplicit false

namespace Jinete

/-- `s` is a stop of one of the routes `rs`. -/
def StopOf (c : Core) (rs : List Nat) (s : Nat) : Prop := ∃ r ∈ rs, s ∈ (c.route r).stops

/-- `p` is a planned trip picked up or dropped at a stop of one of the routes `rs`. -/
def TripAt (c : Core) (rs : List Nat) (p : Nat) : Prop :=
  ∃ s, StopOf c rs s ∧ (p ∈ (c.stop s).pickups ∨ p ∈ (c.stop s).deliveries)

/-- The stops of each route are linked first to last, and the planned trips at stops of these routes refer to stops of these
routes only. Nothing is said about memoised values. -/
structure SelfContained (c : Core) (rs : List Nat) : Prop where
  chained : ∀ r ∈ rs, Chained c r
  pickup : ∀ p, TripAt c rs p → ∀ u ∈ (c.pt p).pickup, StopOf c rs u
  delivery : ∀ p, TripAt c rs p → ∀ d ∈ (c.pt p).delivery, StopOf c rs d

/-- The object belongs to the routes `rs`. -/
def Optimizable.Of (c : Core) (rs : List Nat) : Optimizable → Prop
  | .result l => ∀ r ∈ l, r ∈ rs
  | .planning l => ∀ r ∈ l, r ∈ rs
  | .route r => r ∈ rs
  | .stop s => StopOf c rs s
  | .plannedTrip p => TripAt c rs p
  | .tuple _ => True

/-- The service stops of a route have memoised verdicts. -/
def StopsJudged (h : Heap) (r : Nat) : Prop :=
  ∀ s ∈ (h.core.route r).stops, ((h.core.stop s).pickups ≠ [] ∨ (h.core.stop s).deliveries ≠ []) → h.sfeas s ≠ none

/-- No load is memoised at the stops of a route. -/
def NoLoads (h : Heap) (r : Nat) : Prop := ∀ s ∈ (h.core.route r).stops, h.cap s = none

end Jinete
