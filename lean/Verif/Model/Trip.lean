import Verif.Basic

/-!
# Services, trips and vehicles

jinete/models/services.py, jinete/models/trips.py, jinete/models/vehicles.py. These objects are never
mutated after construction and `deepcopy` returns them unchanged (trips.py:163-164,
vehicles.py:102-103), so they are plain values addressed by an identity number through `Env`.
-/

set_option autoImplicit false

namespace Jinete

/-- `Service`, jinete/models/services.py:33-78. `earliest` and `duration` are finite rationals;
`latest` may be `inf` (the default). -/
structure Service where
  position : Pos
  earliest : ℚ := 0
  latest : Bound := .inf
  duration : ℚ := 0
  deriving DecidableEq

/-- `Trip`, jinete/models/trips.py:40-112. The identifier string is represented by the identity
number under which the trip is stored in `Env`. -/
structure Trip where
  origin : Service
  destination : Service
  capacity : ℚ := 1
  onTimeBonus : ℚ := 0
  timeout : Bound := .inf
  deriving DecidableEq

/-- `Vehicle`, jinete/models/vehicles.py:33-53. -/
structure Vehicle where
  origin : Service
  destination? : Option Service := none
  capacity : ℚ := 1
  timeout : Bound := .inf
  deriving DecidableEq

/-- `Vehicle.destination`, jinete/models/vehicles.py:71-75. -/
def Vehicle.destination (v : Vehicle) : Service := v.destination?.getD v.origin

/-- Everything immutable: the metric of the surface (its cache is transparent, property C01), the
trips and the vehicles. -/
structure Env where
  metric : Pos → Pos → ℚ
  trip : Nat → Trip
  vehicle : Nat → Vehicle

namespace Trip

variable (metric : Pos → Pos → ℚ) (t : Trip)

/-- `Service.time_to(self.origin, self.destination)`, jinete/models/services.py (delegates to
`Position.time_to`, positions.py:68-76, and `GeometricSurface.time`). -/
def directTime : ℚ := metric t.origin.position t.destination.position

/-- `Trip.origin_earliest`, jinete/models/trips.py:118-120. With an infinite timeout the first
argument of `max` is `-inf`. -/
def originEarliest : ℚ :=
  match t.timeout with
  | .fin q => max (t.destination.earliest - t.destination.duration - q) t.origin.earliest
  | .inf => t.origin.earliest

/-- `Trip.origin_latest`, jinete/models/trips.py:122-127. -/
def originLatest : Bound :=
  Bound.min ((t.destination.latest.subQ t.destination.duration).subQ (t.directTime metric)) t.origin.latest

/-- `Trip.destination_earliest`, jinete/models/trips.py:137-142 (cached; a trip is immutable). -/
def destinationEarliest : ℚ :=
  max (t.origin.earliest + t.origin.duration + t.directTime metric) t.destination.earliest

/-- `Trip.destination_latest`, jinete/models/trips.py:144-146 (cached; a trip is immutable). -/
def destinationLatest : Bound :=
  Bound.min ((t.origin.latest.addQ t.origin.duration).add t.timeout) t.destination.latest

/-- `Trip.empty`, jinete/models/trips.py:152-154. -/
def empty : Bool := decide (t.capacity = 0)

/-- `Trip.distance`, jinete/models/trips.py:156-158. -/
def distance : ℚ := metric t.origin.position t.destination.position

end Trip

end Jinete
