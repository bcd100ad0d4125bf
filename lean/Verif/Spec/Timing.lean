import Verif.Spec.Itinerary

/-!
# Specification: timings of an itinerary

A timing says when each visit is reached, when its service starts and when it is left. The vehicle may wait wherever it likes.
-/

set_option autoImplicit false

namespace Jinete

variable (E : Env)

/-- A vehicle free at position `p` from time `t` on can make the visits at these times: it needs the travel times, does not start
a service before the visit opens, and stays until everybody is served. -/
def Drives (t : ℚ) (p : Pos) : List Visit → List Tm → Prop
  | [], [] => True
  | v :: l, x :: ts => (t + E.metric p v.pos ≤ x.arr ∧ x.arr ≤ x.start ∧ v.earliest E ≤ x.start ∧ x.start + v.loadTime E ≤ x.dep) ∧
      Drives x.dep v.pos l ts
  | _, _ => False

/-- No service starts before the time asked for by the planner. -/
def Honours : List Visit → List Tm → Prop
  | v :: l, x :: ts => (∀ q ∈ v.request, q ≤ x.start) ∧ Honours l ts
  | _, _ => True

/-- A timing of an itinerary that meets all constraints of the vehicle and of the trips. -/
structure FeasibleTiming (veh : Vehicle) (l : List Visit) (ts : List Tm) : Prop where
  drives : Drives E veh.origin.earliest veh.origin.position l ts
  startPos : l.head?.map Visit.pos = some veh.origin.position
  endPos : l.getLast?.map Visit.pos = some veh.destination.position
  endTime : ∀ y ∈ ts.getLast?, (veh.destination.latest.addQ errorBound).leQ y.dep = true
  duration : ∀ x ∈ ts.head?, ∀ y ∈ ts.getLast?, (veh.timeout.addQ errorBound).leQ (y.dep - x.dep) = true
  trips : ∀ (i j : Nat) (v w : Visit) (x y : Tm) (q q' : ℚ) (t : Nat), l[i]? = some v → l[j]? = some w → ts[i]? = some x → ts[j]? = some y →
    (loads E 0 l)[i]? = some q → (loads E 0 l)[j]? = some q' → t ∈ v.picks → t ∈ w.drops → TripOK E veh t x y q q'

/-- Nobody waits when it counts: with the vehicle leaving as early as possible and never waiting longer than necessary, there is no
waiting during a ride of limited length, nor, if the duration of the tour is limited, at any visit but the first. -/
structure WaitsOutside (veh : Vehicle) (l : List Visit) : Prop where
  rides : ∀ (i j k : Nat) (v w : Visit) (x : Tm) (t : Nat), l[i]? = some v → l[j]? = some w → t ∈ v.picks → t ∈ w.drops →
    (E.trip t).timeout ≠ .inf → i < k → k ≤ j → (vehicleTimetable E veh l)[k]? = some x → x.start = x.arr
  tour : veh.timeout ≠ .inf → ∀ (k : Nat) (x : Tm), 0 < k → (vehicleTimetable E veh l)[k]? = some x → x.start = x.arr

end Jinete
