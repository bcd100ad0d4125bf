import Verif.Model.Rounded
import Verif.Spec.RouteState

/-!
# Specification: what may be assumed of rounded arithmetic, and constraints met up to a tolerance
-/

set_option autoImplicit false

namespace Jinete

/-- The order facts about rounding: it is monotone, does not change what is rounded already, keeps zero; computed distances are
not negative; and the opening times of the problem are numbers that can be represented. -/
structure Reckoning.Sane (K : Reckoning) (E : Env) : Prop where
  mono : ∀ a b, a ≤ b → K.round a ≤ K.round b
  idem : ∀ q, K.round (K.round q) = K.round q
  zero : K.round 0 = 0
  dist : ∀ a b, 0 ≤ K.dist a b
  vehicle : ∀ v, K.round (E.vehicle v).origin.earliest = (E.vehicle v).origin.earliest
  origin : ∀ t, K.round (E.trip t).origin.earliest = (E.trip t).origin.earliest
  destination : ∀ t, K.round (E.trip t).destination.earliest = (E.trip t).destination.earliest

/-- The start times asked for at the stops of a route are numbers that can be represented. -/
def Reckoning.Requests (K : Reckoning) (c : Core) (r : Nat) : Prop :=
  ∀ s ∈ (c.route r).stops, ∀ q ∈ (c.stop s).start, K.round q = q

/-- A number, if it is one, is at most `m` in absolute value. -/
def Bound.Within (m : ℚ) : Bound → Prop
  | .fin q => |q| ≤ m
  | .inf => True

/-- The numbers of a service are at most `m` in absolute value. -/
structure Service.Within (m : ℚ) (s : Service) : Prop where
  earliest : |s.earliest| ≤ m
  latest : s.latest.Within m
  duration : |s.duration| ≤ m

/-- The places of a problem are not far from each other, and all its numbers are at most `m` in absolute value. -/
structure Env.Small (E : Env) (dist : Pos → Pos → ℚ) (place : Pos → Prop) (m : ℚ) : Prop where
  far : ∀ a b, place a → place b → |dist a b| ≤ m
  depots : ∀ v, place (E.vehicle v).origin.position
  ends : ∀ t, place (E.trip t).origin.position ∧ place (E.trip t).destination.position
  origin : ∀ t, (E.trip t).origin.Within m
  destination : ∀ t, (E.trip t).destination.Within m
  timeout : ∀ t, (E.trip t).timeout.Within m
  start : ∀ v, (E.vehicle v).origin.Within m
  final : ∀ v, (E.vehicle v).destination.Within m
  shift : ∀ v, (E.vehicle v).timeout.Within m
  room : ∀ v, |(E.vehicle v).capacity| ≤ m

/-- Rounding a number of absolute value up to `H` changes it by at most `ε`, computed distances between the places of the problem
are off by at most `δ`, and all numbers of the problem are small compared to `H`. -/
structure Reckoning.Close (K : Reckoning) (E : Env) (place : Pos → Prop) (H ε δ : ℚ) : Prop extends E.Small K.dist place (H / 8) where
  error : ∀ q, |q| ≤ H → |K.round q - q| ≤ ε
  dist : ∀ a b, place a → place b → |K.dist a b - E.metric a b| ≤ δ
  one : 1 ≤ H
  small : ε ≤ H / 8

/-- The number is an integer. -/
def IsInt (q : ℚ) : Prop := ∃ n : ℤ, q = n

/-- The number is an integer or infinite. -/
def Bound.Integral : Bound → Prop
  | .fin q => IsInt q
  | .inf => True

/-- The numbers of a service are integers. -/
structure Service.Integral (s : Service) : Prop where
  earliest : IsInt s.earliest
  latest : s.latest.Integral
  duration : IsInt s.duration

/-- All numbers of a problem, and the distances between its places, are integers. -/
structure Env.Integral (E : Env) (place : Pos → Prop) : Prop where
  metric : ∀ a b, place a → place b → IsInt (E.metric a b)
  origin : ∀ t, (E.trip t).origin.Integral
  destination : ∀ t, (E.trip t).destination.Integral
  timeout : ∀ t, (E.trip t).timeout.Integral
  capacity : ∀ t, IsInt (E.trip t).capacity
  start : ∀ v, (E.vehicle v).origin.Integral
  final : ∀ v, (E.vehicle v).destination.Integral
  shift : ∀ v, (E.vehicle v).timeout.Integral
  room : ∀ v, IsInt (E.vehicle v).capacity

variable (E : Env)

/-- `TripOK` with an arbitrary tolerance. -/
structure TripWithin (tol : ℚ) (veh : Vehicle) (t : Nat) (x y : Tm) (q q' : ℚ) : Prop where
  pickEarliest : (E.trip t).originEarliest ≤ x.start + tol
  pickLatest : (((E.trip t).originLatest E.metric).addQ tol).leQ x.start = true
  dropEarliest : (E.trip t).destinationEarliest E.metric ≤ y.start + tol
  dropLatest : (((E.trip t).destinationLatest).addQ tol).leQ y.start = true
  pickLoad : q ≤ veh.capacity + tol
  dropLoad : q' ≤ veh.capacity + tol
  ride : ((E.trip t).timeout.addQ tol).leQ (y.start - x.dep) = true

/-- `FeasibleItinerary` with an arbitrary tolerance: the exact times meet all constraints up to `tol`. -/
structure FeasibleWithin (tol : ℚ) (veh : Vehicle) (l : List Visit) : Prop where
  startPos : l.head?.map Visit.pos = some veh.origin.position
  startTime : ∀ x ∈ (vehicleTimetable E veh l).head?, veh.origin.earliest - tol ≤ x.arr
  endPos : l.getLast?.map Visit.pos = some veh.destination.position
  endTime : ∀ y ∈ (vehicleTimetable E veh l).getLast?, (veh.destination.latest.addQ tol).leQ y.dep = true
  duration : ∀ x ∈ (vehicleTimetable E veh l).head?, ∀ y ∈ (vehicleTimetable E veh l).getLast?,
    (veh.timeout.addQ tol).leQ (y.dep - x.dep) = true
  trips : ∀ (i j : Nat) (v w : Visit) (x y : Tm) (q q' : ℚ) (t : Nat),
    l[i]? = some v → l[j]? = some w →
    (vehicleTimetable E veh l)[i]? = some x → (vehicleTimetable E veh l)[j]? = some y →
    (loads E 0 l)[i]? = some q → (loads E 0 l)[j]? = some q' →
    t ∈ v.picks → t ∈ w.drops → TripWithin E tol veh t x y q q'

end Jinete
