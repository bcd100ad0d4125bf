import Verif.Model.Milp

/-!
# Specification: timed plans

What it means to serve a job, without variables or linear constraints.
-/

set_option autoImplicit false

namespace Jinete

namespace Milp

variable (P : Milp)

/-- Passengers that get on (off, if negative) at a node. -/
def request (i : Nat) : ℚ :=
  if i = 0 then 0 else if i ≤ P.n then (P.trips.map fun t => t.capacity).getD (i - 1) 0
  else -(P.trips.map fun t => t.capacity).getD (i - P.n - 1) 0

/-- Time spent at a node. -/
def stay (i : Nat) : ℚ :=
  if i = 0 then 0 else if i ≤ P.n then (P.trips.map fun t => t.origin.duration).getD (i - 1) 0
  else (P.trips.map fun t => t.destination.duration).getD (i - P.n - 1) 0

end Milp

/-- The nodes of each vehicle in order, the time of each of them, and the times at the depots. -/
structure Plan where
  stops : Nat → List Nat
  time : Nat → ℚ
  start : Nat → ℚ
  finish : Nat → ℚ

namespace Plan

variable (π : Plan) (P : Milp)

/-- The nodes of vehicle `k` with the depots. -/
def path (k : Nat) : List Nat := 0 :: (π.stops k ++ [2 * P.n + 1])

/-- The time of vehicle `k` at node `i`. -/
def at_ (k i : Nat) : ℚ := if i = 0 then π.start k else if i = 2 * P.n + 1 then π.finish k else π.time i

/-- Length of the tours of all vehicles. -/
def length : ℚ := ((List.range P.m).map fun k => (((π.path P k).zip (π.path P k).tail).map fun ij =>
  P.metric (P.pos ij.1) (P.pos ij.2)).sum).sum

/-- Every trip is served by one vehicle, in time and within the capacity. -/
structure Serves : Prop where
  served : ∀ t < P.n, ∃ k < P.m, t + 1 ∈ π.stops k ∧ P.n + (t + 1) ∈ π.stops k ∧
    ∀ k' < P.m, k' ≠ k → t + 1 ∉ π.stops k' ∧ P.n + (t + 1) ∉ π.stops k'
  nodes : ∀ k < P.m, ∀ i ∈ π.stops k, 1 ≤ i ∧ i ≤ 2 * P.n
  nodup : ∀ k < P.m, (π.stops k).Nodup
  order : ∀ k < P.m, ∀ t < P.n, ∀ q r, π.stops k = q ++ (P.n + (t + 1)) :: r → t + 1 ∈ q
  advance : ∀ k < P.m, ∀ ij ∈ (π.path P k).zip (π.path P k).tail,
    π.at_ P k ij.1 + P.stay ij.1 + P.travel ij.1 ij.2 ≤ π.at_ P k ij.2
  pickup_window : ∀ t (ht : t < P.n), (P.trips[t]).originEarliest ≤ π.time (t + 1) ∧
    Bound.leQ (π.time (t + 1)) ((P.trips[t]).originLatest P.metric) = true
  delivery_window : ∀ t (ht : t < P.n), (P.trips[t]).destinationEarliest P.metric ≤ π.time (P.n + (t + 1)) ∧
    Bound.leQ (π.time (P.n + (t + 1))) (P.trips[t]).destinationLatest = true
  ride : ∀ t (ht : t < P.n),
    Bound.leQ (π.time (P.n + (t + 1)) - (π.time (t + 1) + (P.trips[t]).origin.duration)) (P.trips[t]).timeout = true ∧
    π.time (t + 1) + (P.trips[t]).origin.duration +
      P.metric (P.trips[t]).origin.position (P.trips[t]).destination.position ≤ π.time (P.n + (t + 1))
  load : ∀ k (hk : k < P.m), ∀ q i r, π.path P k = q ++ i :: r →
    0 ≤ ((q ++ [i]).map P.request).sum ∧ ((q ++ [i]).map P.request).sum ≤ (P.vehicles[k]).capacity
  depots : ∀ k < P.m, 0 ≤ π.start k ∧ π.start k ≤ 1440 ∧ 0 ≤ π.finish k ∧ π.finish k ≤ 1440
  times : ∀ i, 0 ≤ π.time i
  duration : ∀ k (hk : k < P.m), Bound.leQ (π.finish k - π.start k) (P.vehicles[k]).timeout = true

end Plan

end Jinete
