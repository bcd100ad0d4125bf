import Verif.Spec.RouteState
import Verif.Model.Objective

/-!
# Specification: choosing by a key, and what criteria and objectives measure

Values are functions of the itinerary of a route and of its vehicle.
-/

set_option autoImplicit false

namespace Jinete

/-! ## Choosing -/

section
variable {α K : Type} [LinearOrder K]

/-- `b` is the first element with the largest key. -/
def FirstMax (l : List (α × K)) (b : α × K) : Prop :=
  ∃ pre suf, l = pre ++ b :: suf ∧ (∀ x ∈ pre, x.2 < b.2) ∧ ∀ x ∈ suf, x.2 ≤ b.2

/-- `b` is the first element with the smallest key. -/
def FirstMin (l : List (α × K)) (b : α × K) : Prop :=
  ∃ pre suf, l = pre ++ b :: suf ∧ (∀ x ∈ pre, b.2 < x.2) ∧ ∀ x ∈ suf, b.2 ≤ x.2

/-- The first best element in a direction. -/
def FirstBest : Direction → List (α × K) → α × K → Prop
  | .maximization => FirstMax
  | .minimization => FirstMin

/-- `a` may stand before `b`. -/
def Before : Direction → K → K → Prop
  | .maximization, a, b => b ≤ a
  | .minimization, a, b => a ≤ b

/-- `s` is `l` ordered best first, elements with equal keys in their original order. -/
structure StablySorted (d : Direction) (l s : List (α × K)) : Prop where
  perm : s.Perm l
  ordered : s.Pairwise fun x y => Before d x.2 y.2
  stable : ∀ k, s.filter (fun x => decide (x.2 = k)) = l.filter fun x => decide (x.2 = k)

end

/-! ## Measuring -/

variable (E : Env)

/-- Length of a tour from `p` through the positions (each leg measured from its end to its start). -/
def tourLength (p : Pos) : List Pos → ℚ
  | [] => 0
  | q :: l => E.metric q p + tourLength q l

/-- A served trip: when its pickup is left and when its delivery starts. -/
structure Ride where
  trip : Nat
  pick : ℚ
  drop : ℚ
  deriving DecidableEq

/-- When the service at the visit dropping `t` starts. -/
def dropStart (l : List (Visit × Tm)) (t : Nat) : ℚ :=
  match l.find? fun x => decide (t ∈ x.1.drops) with
  | some x => x.2.start
  | none => 0

/-- The rides of a timed itinerary. -/
def ridesOf (l : List (Visit × Tm)) : List Ride :=
  l.flatMap fun x => x.1.picks.map fun t => ⟨t, x.2.dep, dropStart l t⟩

/-- The rides of a vehicle's itinerary. -/
def rides (veh : Vehicle) (l : List Visit) : List Ride := ridesOf (l.zip (vehicleTimetable E veh l))

/-- Time between leaving the first and leaving the last stop. -/
def tourDuration (veh : Vehicle) (l : List Visit) : ℚ :=
  ((vehicleTimetable E veh l).getLast?.elim 0 Tm.dep) - ((vehicleTimetable E veh l).head?.elim 0 Tm.dep)

/-- What a ride earns at Hash Code 2018: the distance of the trip, and the bonus if it is left exactly at its
earliest time. -/
def Ride.earned (x : Ride) : ℚ :=
  (E.trip x.trip).distance E.metric +
    if x.pick = (E.trip x.trip).originEarliest then (E.trip x.trip).onTimeBonus else 0

/-- What each criterion measures of a feasible route. -/
def criterionValue (veh : Vehicle) (l : List Visit) : Criterion → ℚ
  | .earliestLastDeparture => (vehicleTimetable E veh l).getLast?.elim 0 Tm.dep
  | .shortestAverageDuration =>
    if rides E veh l = [] then 0 else ((rides E veh l).map fun x => x.drop - x.pick).sum / (rides E veh l).length
  | .shortestTime => tourDuration E veh l
  | .longestTime => tourDuration E veh l
  | .longestUtilTime => ((l.flatMap Visit.picks).map fun t => (E.trip t).distance E.metric).sum
  | .hashCode => ((rides E veh l).map (Ride.earned E)).sum

/-- What an objective measures of one route: Dial-a-Ride the number of trips served and (negated) the length of the
tour, Taxi-Sharing the time passengers spend on board, Hash Code what the rides earn; trips without passengers do
not count in the last two. -/
def routeValue (veh : Vehicle) (l : List Visit) : Objective → List ℚ
  | .dialARide => [((l.flatMap Visit.picks).length : ℚ), - tourLength E veh.origin.position (l.map Visit.pos)]
  | .taxiSharing =>
    [(((rides E veh l).filter fun x => decide ((E.trip x.trip).capacity ≠ 0)).map fun x => x.drop - x.pick).sum]
  | .hashCode =>
    [(((rides E veh l).filter fun x => decide ((E.trip x.trip).capacity ≠ 0)).map (Ride.earned E)).sum]

/-- The component-wise sum of tuples of length `dim`. -/
def columnSums (dim : Nat) (l : List (List ℚ)) : List ℚ :=
  (List.range dim).map fun i => (l.map fun v => v.getD i 0).sum

/-- What an objective measures of a planning: the component-wise sum over its routes. -/
def planningValue (k : Objective) (l : List (Vehicle × List Visit)) : List ℚ :=
  columnSums k.dim (l.map fun x => routeValue E x.1 x.2 k)

/-- A route as its vehicle and itinerary. -/
def planOf (c : Core) (r : Nat) : Vehicle × List Visit := (E.vehicle (c.route r).vehicle, itinerary c r)

/-- A route that can be measured: well formed, with memoised times that agree with its schedule. -/
def Sound (h : Heap) (r : Nat) : Prop := WellFormed h.core r ∧ CachesAgree E h r

/-- What an objective measures of one planned trip picked up at a position at times `x` and dropped, after driving
through the positions `l`, at times `y`. -/
def tripValue (t : Nat) (x y : Tm) (p : Pos) (l : List Pos) : Objective → List ℚ
  | .dialARide => [1, - tourLength E p l]
  | .taxiSharing => [if (E.trip t).capacity = 0 then 0 else y.start - x.dep]
  | .hashCode => [if (E.trip t).capacity = 0 then 0 else Ride.earned E ⟨t, x.dep, y.start⟩]

/-- `v` is the value of planned trip `p` of some sound route. -/
def TripHasValue (h : Heap) (k : Objective) (p : Nat) (v : List ℚ) : Prop :=
  ∃ (r u d : Nat) (pre mid suf : List Nat) (x y : Tm), Sound E h r ∧ (h.core.route r).stops = pre ++ u :: (mid ++ d :: suf) ∧
    p ∈ (h.core.stop u).pickups ∧ p ∈ (h.core.stop d).deliveries ∧ (routeTimetable E h.core r)[pre.length]? = some x ∧
    (routeTimetable E h.core r)[pre.length + 1 + mid.length]? = some y ∧
    v = tripValue E (h.core.pt p).trip x y (h.core.stop u).position ((mid ++ [d]).map fun s => (h.core.stop s).position) k

/-- The value of something that can be optimised. -/
inductive HasValue (h : Heap) (k : Objective) : Optimizable → List ℚ → Prop
  | tuple (v : List ℚ) : HasValue h k (.tuple v) v
  | plannedTrip {p : Nat} {v : List ℚ} : TripHasValue E h k p v → HasValue h k (.plannedTrip p) v
  | stop {r s : Nat} {vs : List (List ℚ)} : Sound E h r → s ∈ (h.core.route r).stops →
      List.Forall₂ (TripHasValue E h k) (h.core.stop s).pickups vs → HasValue h k (.stop s) (columnSums k.dim vs)
  | route {r : Nat} : Sound E h r →
      HasValue h k (.route r) (routeValue E (E.vehicle (h.core.route r).vehicle) (itinerary h.core r) k)
  | planning {l : List Nat} : (∀ r ∈ l, Sound E h r) → HasValue h k (.planning l) (planningValue E k (l.map (planOf E h.core)))
  | result {l : List Nat} : (∀ r ∈ l, Sound E h r) → HasValue h k (.result l) (planningValue E k (l.map (planOf E h.core)))

end Jinete
