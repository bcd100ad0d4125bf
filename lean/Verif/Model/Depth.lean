import Verif.Model.Route

/-!
# Depth of the recursion along the stops

Python limits how deeply calls may be nested (1000 by default, `sys.setrecursionlimit`), and raises
`RecursionError` beyond. The times of a stop are computed from those of the stop before by nested calls.
-/

set_option autoImplicit false

namespace Jinete

variable (E : Env)

/-- `route.last_stop.departure_time`, jinete/models/routes.py:176-179 and jinete/models/stops.py:153-182, where
at most `L` computations of `departure_time` may be nested. Each of them uses several Python frames
(`departure_time`, `starting_time`, `arrival_time`, `previous_departure_time` and those of `cached_property`), and
what calls it uses some, so that the limit of 1000 leaves room for fewer than `L = 250`; the number of frames is
not modelled. Elsewhere in the model the depth is not limited. -/
def lastDepartureWithin (L : Nat) (r : Nat) : M ℚ := do
  let s ← lastStop r
  departureF E L s

end Jinete
