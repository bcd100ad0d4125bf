import Verif.Spec.Contest
import Verif.Spec.Itinerary

/-!
# Which rides of a Hash Code file can be served at all

Stated with the numbers of the file only.
-/

set_option autoImplicit false

namespace Jinete

/-- A vehicle that starts at `(0, 0)` at time 0, goes to the ride, waits for its earliest start, drives it and returns, starts the ride
by the time given as its latest finish and is back by the end `T`; up to `ERROR_BOUND`. -/
structure ContestRide.RoundTrip (r : ContestRide) (T : ℚ) : Prop where
  started : r.startAt 0 0 0 ≤ r.latest + errorBound
  back : r.startAt 0 0 0 + r.distance + grid r.finishX r.finishY 0 0 ≤ T + errorBound

/-- What the contest asks for: a vehicle that starts at `(0, 0)` at time 0 can finish the ride by its latest finish and by the end. -/
structure ContestRide.Deliverable (r : ContestRide) (T : ℚ) : Prop where
  inTime : r.startAt 0 0 0 + r.distance ≤ r.latest
  horizon : r.startAt 0 0 0 + r.distance ≤ T

end Jinete
