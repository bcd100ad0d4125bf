import Verif.Model.Milp
import Mathlib.Algebra.Order.Round

/-!
# Specification: what solutions of the linear model should mean

Trip `t` is picked up at node `t + 1` and delivered at node `n + (t + 1)`; node `0` is the origin depot and node
`2 n + 1` the destination depot.
-/

set_option autoImplicit false

namespace Jinete

namespace Milp

variable (P : Milp) (a : Assignment)

/-- Vehicle `k` uses the arc from `i` to `j`. -/
def Uses (k i j : Nat) : Prop := i < 2 * P.n + 2 ∧ j < 2 * P.n + 2 ∧ a.x k i j = 1

/-- Vehicle `k` leaves and enters node `i` over exactly one arc each. -/
def VisitsOnce (k i : Nat) : Prop := (∃! j, P.Uses a k i j) ∧ ∃! j, P.Uses a k j i

/-- Vehicle `k` has nothing to do with node `i`. -/
def Avoids (k i : Nat) : Prop := (∀ j, ¬ P.Uses a k i j) ∧ ∀ j, ¬ P.Uses a k j i

/-- Every trip is served by one vehicle. -/
structure ServesOnce : Prop where
  trips : ∀ t < P.n, ∃ k < P.m, P.VisitsOnce a k (t + 1) ∧ P.VisitsOnce a k (P.n + (t + 1)) ∧
    ∀ k' < P.m, k' ≠ k → P.Avoids a k' (t + 1) ∧ P.Avoids a k' (P.n + (t + 1))
  leaves : ∀ k < P.m, ∃! j, P.Uses a k 0 j
  enters : ∀ k < P.m, ∃! i, P.Uses a k i (2 * P.n + 1)

/-- Times, ride times, loads and durations of a vehicle are those of a possible tour. `pickDur t` and `dropDur t` are
the times spent at the origin and at the destination of trip `t`. -/
structure Respects (pickDur dropDur : Trip → ℚ) : Prop where
  from_depot : ∀ k < P.m, ∀ j, P.Uses a k 0 j → a.u k 0 + P.travel 0 j ≤ a.u k j
  from_pickup : ∀ k < P.m, ∀ j t (ht : t < P.n), P.Uses a k (t + 1) j →
    a.u k (t + 1) + pickDur (P.trips[t]) + P.travel (t + 1) j ≤ a.u k j
  from_delivery : ∀ k < P.m, ∀ j t (ht : t < P.n), P.Uses a k (P.n + (t + 1)) j →
    a.u k (P.n + (t + 1)) + dropDur (P.trips[t]) + P.travel (P.n + (t + 1)) j ≤ a.u k j
  load_pickup : ∀ k < P.m, ∀ i t (ht : t < P.n), P.Uses a k i (t + 1) → a.w k i + (P.trips[t]).capacity ≤ a.w k (t + 1)
  load_delivery : ∀ k < P.m, ∀ i t (ht : t < P.n), P.Uses a k i (P.n + (t + 1)) →
    a.w k i - (P.trips[t]).capacity ≤ a.w k (P.n + (t + 1))
  pickup_window : ∀ k < P.m, ∀ t (ht : t < P.n), (P.trips[t]).originEarliest ≤ a.u k (t + 1) ∧
    Bound.leQ (a.u k (t + 1)) ((P.trips[t]).originLatest P.metric) = true
  delivery_window : ∀ k < P.m, ∀ t (ht : t < P.n), (P.trips[t]).destinationEarliest P.metric ≤ a.u k (P.n + (t + 1)) ∧
    Bound.leQ (a.u k (P.n + (t + 1))) ((P.trips[t]).destinationLatest) = true
  ride : ∀ k < P.m, ∀ t (ht : t < P.n),
    Bound.leQ (a.u k (P.n + (t + 1)) - (a.u k (t + 1) + pickDur (P.trips[t]))) (P.trips[t]).timeout = true ∧
    a.u k (t + 1) + pickDur (P.trips[t]) + P.metric (P.trips[t]).origin.position (P.trips[t]).destination.position ≤
      a.u k (P.n + (t + 1))
  capacity : ∀ k (hk : k < P.m), ∀ i < 2 * P.n + 2, 0 ≤ a.w k i ∧ a.w k i ≤ (P.vehicles[k]).capacity
  duration : ∀ k (hk : k < P.m), Bound.leQ (a.u k (2 * P.n + 1) - a.u k 0) (P.vehicles[k]).timeout = true

/-- Distance travelled by all vehicles. -/
def travelled : ℚ := ((P.routesIdx.product (P.positionsIdx.product P.positionsIdx)).map fun kij =>
    a.x kij.1 kij.2.1 kij.2.2 * P.metric (P.pos kij.2.1) (P.pos kij.2.2)).sum

/-- `p` is a path of vehicle `k` from depot to depot. -/
structure DepotPath (k : Nat) (p : List Nat) : Prop where
  first : p.head? = some 0
  last : p.getLast? = some (2 * P.n + 1)
  nodup : p.Nodup
  arcs : p.IsChain fun i j => P.Uses a k i j

end Milp

/-- All destinations close at some time, so that no coefficient of the model is infinite. -/
def Milp.Closes (P : Milp) : Prop := ∀ t ∈ P.trips, ∃ q, t.destination.latest = .fin q

end Jinete
