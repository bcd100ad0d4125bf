import Verif.Spec.Value
import Verif.Model.Columnar

/-!
# Specification: what a report on a plan has to show
-/

set_option autoImplicit false

namespace Jinete

variable (E : Env)

/-- One stage of a tour: the driving time to a visit, the visit, its times and the load after it. -/
structure Stage where
  leg : ℚ
  visit : Visit
  tm : Tm
  load : ℚ
  deriving DecidableEq

/-- The stages of a tour that leaves `p` at `t` with load `q`. -/
def stages (t : ℚ) (p : Pos) (q : ℚ) : List Visit → List Stage
  | [] => []
  | v :: l =>
    let q' := q + tripsCapacity E v.picks - tripsCapacity E v.drops
    ⟨E.metric p v.pos, v, serve E t p v, q'⟩ :: stages (serve E t p v).dep v.pos q' l

/-- The stages of a vehicle's tour. -/
def vehicleStages (veh : Vehicle) (l : List Visit) : List Stage := stages E veh.origin.earliest veh.origin.position 0 l

/-- Time spent waiting at a stage. -/
def Stage.wait (x : Stage) : ℚ := x.tm.start - x.tm.arr

/-- Closing time of a visit: the smallest effective latest time of the trips served. -/
def Visit.latest (v : Visit) : Bound :=
  minBound ((v.picks.map fun t => (E.trip t).originLatest E.metric) ++ (v.drops.map fun t => (E.trip t).destinationLatest))

/-- What a visit is called: `[`, the trips picked up with `P` and those dropped with `D`, separated by `|`, `]`. -/
def Visit.name (ident : Nat → Text) (v : Visit) : Text :=
  ['['] ++ List.intercalate ['|'] (v.picks.map (fun t => 'P' :: ident t) ++ v.drops.map fun t => 'D' :: ident t) ++ [']']

/-- The row shows this stage. -/
structure ShowsStop (ident : Nat → Text) (x : Stage) (row : StopRow) : Prop where
  ident : row.ident = x.visit.name ident
  pos : row.pos = x.visit.pos
  earliest : row.earliest = x.visit.earliest E
  latest : row.latest = x.visit.latest E
  waiting : row.waiting = x.wait
  transit : row.transit = x.leg
  load : row.load = x.visit.loadTime E
  departure : row.departure = x.tm.dep
  capacity : row.capacity = x.load

/-- The row shows the ride of trip `t` on a tour that picks it up at stage `a` and drops it, after the stages `mid`, at
stage `b`. -/
structure ShowsRideBetween (ident : Nat → Text) (t : Nat) (a : Stage) (mid : List Stage) (b : Stage) (row : TripRow) : Prop where
  ident : row.ident = ident t
  origin : row.origin = (E.trip t).origin.position
  destination : row.destination = (E.trip t).destination.position
  earliest : row.earliest = (E.trip t).originEarliest
  latest : row.latest = (E.trip t).destinationLatest
  waiting : row.waiting = ((mid ++ [b]).map Stage.wait).sum
  transit : row.transit = ((mid ++ [b]).map Stage.leg).sum
  load : row.load = a.visit.loadTime E + b.visit.loadTime E
  duration : row.duration = b.tm.start - a.tm.dep
  pick : row.pick = a.tm.dep
  drop : row.drop = b.tm.start
  capacity : row.capacity = (E.trip t).capacity

/-- The row shows the ride of trip `t` on a tour. -/
def ShowsRide (ident : Nat → Text) (tour : List Stage) (t : Nat) (row : TripRow) : Prop :=
  ∃ pre a mid b suf, tour = pre ++ a :: (mid ++ b :: suf) ∧ t ∈ a.visit.picks ∧ t ∈ b.visit.drops ∧ ShowsRideBetween E ident t a mid b row

/-- The rows show the tour of vehicle number `v`: the vehicle, its rides in the order in which they begin and its stops. -/
structure ShowsRoute (ident vehicleIdent : Nat → Text) (v : Nat) (l : List Visit) (x : RouteRows) : Prop where
  vehicle : x.vehicle = vehicleIdent v
  initial : x.initial = (E.vehicle v).origin.position
  final : x.final = (E.vehicle v).destination.position
  earliest : x.earliest = (E.vehicle v).origin.earliest
  latest : x.latest = (E.vehicle v).origin.latest
  capacity : x.capacity = (E.vehicle v).capacity
  trips : List.Forall₂ (ShowsRide E ident (vehicleStages E (E.vehicle v) l)) (l.flatMap Visit.picks) x.trips
  stops : List.Forall₂ (ShowsStop E ident) (vehicleStages E (E.vehicle v) l) x.stops

end Jinete
