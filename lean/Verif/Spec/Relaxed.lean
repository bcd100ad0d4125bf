import Verif.Spec.Timing

/-!
# Specification: an easier problem

The same requests and vehicles with weaker constraints.
-/

set_option autoImplicit false

namespace Jinete

/-- A service with a wider window, at the same place and of the same duration. -/
structure Service.Wider (s s' : Service) : Prop where
  position : s'.position = s.position
  duration : s'.duration = s.duration
  earliest : s'.earliest ≤ s.earliest
  latest : s.latest.le s'.latest = true

/-- The second problem asks for no more than the first: travel takes no longer, all windows are at least as wide, rides and tours may take
at least as long, and vehicles hold at least as many. -/
structure Relaxed (E E' : Env) : Prop where
  metric : ∀ a b, E'.metric a b ≤ E.metric a b
  origin : ∀ t, (E.trip t).origin.Wider (E'.trip t).origin
  destination : ∀ t, (E.trip t).destination.Wider (E'.trip t).destination
  load : ∀ t, (E'.trip t).capacity = (E.trip t).capacity
  ride : ∀ t, (E.trip t).timeout.le (E'.trip t).timeout = true
  start : ∀ v, (E.vehicle v).origin.Wider (E'.vehicle v).origin
  finish : ∀ v, (E.vehicle v).destination.Wider (E'.vehicle v).destination
  capacity : ∀ v, (E.vehicle v).capacity ≤ (E'.vehicle v).capacity
  tour : ∀ v, (E.vehicle v).timeout.le (E'.vehicle v).timeout = true

end Jinete
