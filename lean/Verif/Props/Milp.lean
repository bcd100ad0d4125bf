import Verif.Spec.Milp
import Verif.Proofs.Milp

/-!
# Properties of the three-index model (C57, C58, C60, C61, C62, C66)
-/

set_option autoImplicit false

namespace Jinete

namespace Milp

variable {P : Milp} {a : Assignment}

/-! ## C57 -/

theorem Solution.uses_zero (hs : Solution P a) (hv : P.vehicles ≠ []) {k i j : Nat} (hk : k < P.m) (hi : i < 2 * P.n + 2)
    (hj : j < 2 * P.n + 2) (h : ¬ P.Uses a k i j) : a.x k i j = 0 := by
  have hl := P.len_eq hv
  rcases hs.bin k hk i (by omega) j (by omega) with h0 | h1
  · exact h0
  · exact absurd ⟨hi, hj, h1⟩ h

theorem Solution.out_one (hs : Solution P a) (hv : P.vehicles ≠ []) {k i : Nat} (hk : k < P.m) (hi : i < 2 * P.n + 2) :
    ∑ j ∈ Finset.range P.len, a.x k i j = 1 ↔ ∃! j, P.Uses a k i j := by
  have hl := P.len_eq hv
  rw [sum_eq_one_iff fun j hj => hs.bin k hk i (by omega) j (by simpa using hj)]
  simp only [Uses, Finset.mem_range, hl, hi, true_and]

theorem Solution.in_one (hs : Solution P a) (hv : P.vehicles ≠ []) {k i : Nat} (hk : k < P.m) (hi : i < 2 * P.n + 2) :
    ∑ j ∈ Finset.range P.len, a.x k j i = 1 ↔ ∃! j, P.Uses a k j i := by
  have hl := P.len_eq hv
  rw [sum_eq_one_iff fun j hj => hs.bin k hk j (by simpa using hj) i (by omega)]
  simp only [Uses, Finset.mem_range, hl, hi, true_and]

theorem Solution.out_zero (hs : Solution P a) (hv : P.vehicles ≠ []) {k i : Nat} (hk : k < P.m) (hi : i < 2 * P.n + 2) :
    ∑ j ∈ Finset.range P.len, a.x k i j = 0 ↔ ∀ j, ¬ P.Uses a k i j := by
  have hl := P.len_eq hv
  rw [sum_eq_zero_iff fun j hj => hs.bin k hk i (by omega) j (by simpa using hj)]
  constructor
  · rintro h j ⟨_, hj, h1⟩
    rw [h j (by simp only [Finset.mem_range]; omega)] at h1
    exact absurd h1 (by norm_num)
  · intro h j hj
    simp only [Finset.mem_range] at hj
    exact hs.uses_zero hv hk hi (by omega) (h j)

theorem Solution.in_zero (hs : Solution P a) (hv : P.vehicles ≠ []) {k i : Nat} (hk : k < P.m) (hi : i < 2 * P.n + 2) :
    ∑ j ∈ Finset.range P.len, a.x k j i = 0 ↔ ∀ j, ¬ P.Uses a k j i := by
  have hl := P.len_eq hv
  rw [sum_eq_zero_iff fun j hj => hs.bin k hk j (by simpa using hj) i (by omega)]
  constructor
  · rintro h j ⟨hj, _, h1⟩
    rw [h j (by simp only [Finset.mem_range]; omega)] at h1
    exact absurd h1 (by norm_num)
  · intro h j hj
    simp only [Finset.mem_range] at hj
    exact hs.uses_zero hv hk (by omega) hi (h j)

/-- A pickup is left by one vehicle, by the others not at all. -/
theorem Solution.pickup_vehicle (hs : Solution P a) (hv : P.vehicles ≠ []) {i : Nat} (h1 : 1 ≤ i) (h2 : i ≤ P.n) :
    ∃ k < P.m, ∑ j ∈ Finset.range P.len, a.x k i j = 1 ∧
      ∀ k' < P.m, k' ≠ k → ∑ j ∈ Finset.range P.len, a.x k' i j = 0 := by
  have hl := P.len_eq hv
  have h := hs.once i h1 h2
  rw [Finset.sum_comm] at h
  have hnn : ∀ k ∈ Finset.range P.m, 0 ≤ ∑ j ∈ Finset.range P.len, a.x k i j := fun k hk =>
    Finset.sum_nonneg fun j hj => by
      rcases hs.bin k (by simpa using hk) i (by omega) j (by simpa using hj) with h | h <;> simp [h]
  have hint : ∀ k < P.m, ∑ j ∈ Finset.range P.len, a.x k i j = 0 ∨ 1 ≤ ∑ j ∈ Finset.range P.len, a.x k i j := by
    intro k hk
    by_cases h0 : ∀ j ∈ Finset.range P.len, a.x k i j = 0
    · exact .inl (Finset.sum_eq_zero h0)
    · push Not at h0
      obtain ⟨j, hj, hne⟩ := h0
      have hj1 : a.x k i j = 1 := (hs.bin k hk i (by omega) j (by simpa using hj)).resolve_left hne
      right
      rw [← hj1]
      exact Finset.single_le_sum (f := fun j => a.x k i j) (fun j' hj' => by
        rcases hs.bin k hk i (by omega) j' (by simpa using hj') with h | h <;> simp [h]) hj
  have hbin : ∀ k ∈ Finset.range P.m, ∑ j ∈ Finset.range P.len, a.x k i j = 0 ∨ ∑ j ∈ Finset.range P.len, a.x k i j = 1 := by
    intro k hk
    rcases hint k (by simpa using hk) with h0 | hge
    · exact .inl h0
    · refine .inr (le_antisymm ?_ hge)
      rw [← h]
      exact Finset.single_le_sum (f := fun k => ∑ j ∈ Finset.range P.len, a.x k i j) hnn hk
  obtain ⟨k, ⟨hk, hk1⟩, hu⟩ := (sum_eq_one_iff hbin).1 h
  refine ⟨k, by simpa using hk, hk1, fun k' hk' hne => ?_⟩
  refine (hbin k' (by simpa using hk')).resolve_right fun h1 => hne (hu k' ⟨by simpa using hk', h1⟩)

/-- In every solution each trip is picked up and delivered by exactly one vehicle, which leaves and enters both nodes
over exactly one arc; every vehicle leaves the origin depot and enters the destination depot exactly once. -/
theorem C57_served_once (hv : P.vehicles ≠ []) (h : P.solves a = true) : P.ServesOnce a := by
  have hs := (solves_iff a).1 h
  have hl := P.len_eq hv
  refine ⟨?_, ?_, ?_⟩
  · intro t ht
    obtain ⟨k, hk, h1, h0⟩ := hs.pickup_vehicle hv (i := t + 1) (by omega) (by omega)
    refine ⟨k, hk, ⟨?_, ?_⟩, ⟨?_, ?_⟩, fun k' hk' hne => ⟨⟨?_, ?_⟩, ⟨?_, ?_⟩⟩⟩
    · exact (hs.out_one hv hk (by omega)).1 h1
    · rw [← hs.in_one hv hk (by omega), hs.flow k hk _ (by omega) (by omega)]; exact h1
    · rw [← hs.out_one hv hk (by omega), ← hs.same _ (by omega) (by omega) k hk]; exact h1
    · rw [← hs.in_one hv hk (by omega), hs.flow k hk _ (by omega) (by omega),
        ← hs.same _ (by omega) (by omega) k hk]; exact h1
    · exact (hs.out_zero hv hk' (by omega)).1 (h0 k' hk' hne)
    · rw [← hs.in_zero hv hk' (by omega), hs.flow k' hk' _ (by omega) (by omega)]; exact h0 k' hk' hne
    · rw [← hs.out_zero hv hk' (by omega), ← hs.same _ (by omega) (by omega) k' hk']; exact h0 k' hk' hne
    · rw [← hs.in_zero hv hk' (by omega), hs.flow k' hk' _ (by omega) (by omega),
        ← hs.same _ (by omega) (by omega) k' hk']; exact h0 k' hk' hne
  · intro k hk
    exact (hs.out_one hv hk (by omega)).1 (hs.leave k hk)
  · intro k hk
    have := hs.enter k hk
    rw [hl] at this
    exact (hs.in_one hv hk (by omega)).1 (by rw [hl]; exact this)

/-! ## An instance -/

/-- Distance on a line. -/
def lineMetric (p q : Pos) : ℚ := |p.headD 0 - q.headD 0|

/-- Two vehicles at 0, a trip from 1 to 2 and a trip from 3 to 4. -/
def demo : Milp where
  vehicles := [⟨⟨[0], 0, .inf, 0⟩, none, 2, .fin 100⟩, ⟨⟨[0], 0, .inf, 0⟩, none, 2, .fin 100⟩]
  trips := [⟨⟨[1], 0, .fin 50, 1⟩, ⟨[2], 0, .fin 60, 1⟩, 1, 0, .fin 30⟩, ⟨⟨[3], 0, .fin 50, 1⟩, ⟨[4], 0, .fin 60, 1⟩, 1, 0, .fin 30⟩]
  metric := lineMetric

/-- Arcs of vehicle `k` given by successor lists, times and loads by tables. -/
def ofTables (arcs : List (Nat × Nat × Nat)) (u w : List (List ℚ)) : Assignment where
  x k i j := if (k, i, j) ∈ arcs then 1 else 0
  u k i := (u.getD k []).getD i 0
  w k i := (w.getD k []).getD i 0

/-- The first vehicle serves both trips, the second goes from depot to depot. -/
def demoOne : Assignment := ofTables [(0, 0, 1), (0, 1, 3), (0, 3, 2), (0, 2, 4), (0, 4, 5), (1, 0, 5)]
  [[0, 1, 5, 3, 7, 12], [0, 1, 5, 3, 7, 12]] [[0, 1, 1, 0, 0, 0], [0, 1, 1, 0, 0, 0]]

/-- Each vehicle serves one trip. -/
def demoTwo : Assignment := ofTables [(0, 0, 1), (0, 1, 3), (0, 3, 5), (1, 0, 2), (1, 2, 4), (1, 4, 5)]
  [[0, 1, 5, 3, 7, 12], [0, 1, 5, 3, 7, 12]] [[0, 1, 1, 0, 0, 0], [0, 1, 1, 0, 0, 0]]

theorem demo_solved : demo.solves demoOne = true ∧ demo.solves demoTwo = true := by
  constructor <;> decide +kernel

example : demo.ServesOnce demoOne := C57_served_once (by decide) demo_solved.1

/-! ## C58 -/

theorem window_fin (hv : P.vehicles ≠ []) (hc : P.Closes) {i : Nat} (hi : i < 2 * P.n + 2) :
    ∃ e q, P.window i = some (e, .fin q) := by
  rcases node_cases hi with rfl | rfl | ⟨t, ht, rfl⟩ | ⟨t, ht, rfl⟩
  · exact ⟨_, _, window_origin⟩
  · exact ⟨_, _, window_destination hv⟩
  · obtain ⟨q, hq⟩ := hc _ (List.getElem_mem ht)
    rw [window_pickup hv ht]
    unfold Trip.originLatest
    rw [hq]
    cases (P.trips[t]'ht).origin.latest <;> exact ⟨_, _, rfl⟩
  · obtain ⟨q, hq⟩ := hc _ (List.getElem_mem ht)
    by_cases hne : (P.trips[t]'ht).origin.position = (P.trips[t]'ht).destination.position
    · unfold window
      rw [tripAt_delivery hv ht]
      simp only
      rw [if_pos (by rw [pos_delivery hv ht, hne])]
      unfold Trip.originLatest
      rw [hq]
      cases (P.trips[t]'ht).origin.latest <;> exact ⟨_, _, rfl⟩
    · rw [window_delivery hv ht hne]
      unfold Trip.destinationLatest
      rw [hq]
      cases (P.trips[t]'ht).origin.latest <;> cases (P.trips[t]'ht).timeout <;> exact ⟨_, _, rfl⟩

/-- Times advance along used arcs by the loading time of the model and the travel time. -/
theorem Solution.advance (hs : Solution P a) (hv : P.vehicles ≠ []) (hc : P.Closes) {k i j : Nat} (hk : k < P.m)
    (h : P.Uses a k i j) : a.u k i + P.loadTime i + P.travel i j ≤ a.u k j := by
  have hl := P.len_eq hv
  obtain ⟨hi, hj, hx⟩ := h
  have ht := hs.time k hk i (by omega) j (by omega)
  obtain ⟨e, q, hw⟩ := window_fin hv hc hi
  obtain ⟨e', l', hw'⟩ := window_isSome hv hj
  unfold timeConstraint at ht
  rw [hw, hw'] at ht
  simpa [hx] using ht

/-- Loads grow along used arcs by at least the request. -/
theorem Solution.carry (hs : Solution P a) (hv : P.vehicles ≠ []) {k i j : Nat} (hk : k < P.m)
    (h : P.Uses a k i j) : a.w k i + P.demand j ≤ a.w k j := by
  have hl := P.len_eq hv
  obtain ⟨hi, hj, hx⟩ := h
  have := hs.load k hk i (by omega) j (by omega)
  simpa [hx] using this

theorem vehCapacity_eq {k : Nat} (hk : k < P.m) : P.vehCapacity k = (P.vehicles[k]).capacity := by
  have hk' : k < P.vehicles.length := hk
  simp [vehCapacity, hk']

theorem vehTimeout_eq {k : Nat} (hk : k < P.m) : P.vehTimeout k = (P.vehicles[k]).timeout := by
  have hk' : k < P.vehicles.length := hk
  simp [vehTimeout, hk']

/-- The constraints respect times, windows, ride limits, loads and durations if the time spent at the destination of a
trip is taken to be the time spent at its origin. Missing from the full property: the loading time of destinations (see
`C58_destination_loading_ignored`), trips whose origin is their destination (`C58_origin_window_for_destination`) and
infinite latest times (not modelled). Loads change by at least the request, not by exactly the request
(`C58_load_may_jump`). -/
theorem C58_respects_partial (hv : P.vehicles ≠ []) (hc : P.Closes)
    (hne : ∀ t ∈ P.trips, t.origin.position ≠ t.destination.position) (h : P.solves a = true) :
    P.Respects a (fun t => t.origin.duration) (fun t => t.origin.duration) := by
  have hs := (solves_iff a).1 h
  have hl := P.len_eq hv
  refine ⟨?_, ?_, ?_, ?_, ?_, ?_, ?_, ?_, ?_, ?_⟩
  · intro k hk j hu
    have := hs.advance hv hc hk hu
    rwa [loadTime_origin, add_zero] at this
  · intro k hk j t ht hu
    have := hs.advance hv hc hk hu
    rwa [loadTime_pickup hv ht] at this
  · intro k hk j t ht hu
    have := hs.advance hv hc hk hu
    rwa [loadTime_delivery hv ht] at this
  · intro k hk i t ht hu
    have := hs.carry hv hk hu
    rwa [demand_pickup hv ht] at this
  · intro k hk i t ht hu
    have := hs.carry hv hk hu
    rwa [demand_delivery hv ht, ← sub_eq_add_neg] at this
  · intro k hk t ht
    exact hs.windows k hk _ (by omega) _ _ (window_pickup hv ht)
  · intro k hk t ht
    exact hs.windows k hk _ (by omega) _ _ (window_delivery hv ht (hne _ (List.getElem_mem ht)))
  · intro k hk t ht
    have hr := hs.ride k hk (t + 1) (by omega) (by omega)
    rw [loadTime_pickup hv ht, rideLimit_pickup hv ht, Nat.add_comm (t + 1) P.n] at hr
    refine ⟨hr.2, ?_⟩
    have h1 := hr.1
    unfold travel at h1
    rw [pos_pickup hv ht, pos_delivery hv ht] at h1
    linarith
  · intro k hk i hi
    refine ⟨hs.w_nonneg k hk i (by omega), ?_⟩
    have := (hs.loads k hk i (by omega)).2
    rw [vehCapacity_eq hk] at this
    have h0 : min 0 (P.demand i) ≤ 0 := min_le_left _ _
    linarith
  · intro k hk
    have := hs.duration k hk
    rw [vehTimeout_eq hk, hl] at this
    exact this

/-- With destinations that take no longer than the origins the constraints respect the real loading times. -/
theorem C58_respects_quick_destinations_partial (hv : P.vehicles ≠ []) (hc : P.Closes)
    (hne : ∀ t ∈ P.trips, t.origin.position ≠ t.destination.position)
    (hd : ∀ t ∈ P.trips, t.destination.duration ≤ t.origin.duration) (h : P.solves a = true) :
    P.Respects a (fun t => t.origin.duration) (fun t => t.destination.duration) := by
  have hr := C58_respects_partial hv hc hne h
  exact { hr with
    from_delivery := fun k hk j t ht hu => by
      have h1 := hr.from_delivery k hk j t ht hu
      have h2 := hd _ (List.getElem_mem ht)
      linarith }

example : demo.Respects demoTwo (fun t => t.origin.duration) (fun t => t.destination.duration) := by
  refine C58_respects_quick_destinations_partial (by decide) ?_ (by decide +kernel) (by decide +kernel) demo_solved.2
  intro t ht
  simp only [demo, List.mem_cons, List.not_mem_nil, or_false] at ht
  rcases ht with rfl | rfl <;> exact ⟨_, rfl⟩

/-- One vehicle at 0 and one trip whose passengers need five time units to get off. -/
def slowDestination : Milp where
  vehicles := [⟨⟨[0], 0, .inf, 0⟩, none, 2, .fin 100⟩]
  trips := [⟨⟨[1], 0, .fin 50, 0⟩, ⟨[2], 0, .fin 60, 5⟩, 1, 0, .fin 30⟩]
  metric := lineMetric

/-- The vehicle is back at the depot two time units after the start of the delivery. -/
def slowSolution : Assignment := ofTables [(0, 0, 1), (0, 1, 2), (0, 2, 3)] [[0, 1, 2, 4]] [[0, 1, 0, 0]]

/-- The time spent at a destination is not accounted for. -/
theorem C58_destination_loading_ignored : slowDestination.solves slowSolution = true ∧
    ¬ slowDestination.Respects slowSolution (fun t => t.origin.duration) (fun t => t.destination.duration) := by
  refine ⟨by decide +kernel, fun h => ?_⟩
  have := h.from_delivery 0 (by decide) 3 0 (by decide) ⟨by decide, by decide, by decide +kernel⟩
  revert this
  decide +kernel

/-- One vehicle and one trip that ends where it starts, open for delivery from time 20 on. -/
def roundTrip : Milp where
  vehicles := [⟨⟨[0], 0, .inf, 0⟩, none, 2, .fin 100⟩]
  trips := [⟨⟨[1], 0, .fin 50, 0⟩, ⟨[1], 20, .fin 60, 0⟩, 1, 0, .fin 30⟩]
  metric := lineMetric

def roundSolution : Assignment := ofTables [(0, 0, 1), (0, 1, 2), (0, 2, 3)] [[0, 1, 1, 4]] [[0, 1, 0, 0]]

/-- The destination of a trip that ends where it starts gets the window of the origin. -/
theorem C58_origin_window_for_destination : roundTrip.solves roundSolution = true ∧
    ¬ roundTrip.Respects roundSolution (fun t => t.origin.duration) (fun t => t.origin.duration) := by
  refine ⟨by decide +kernel, fun h => ?_⟩
  have := (h.delivery_window 0 (by decide) 0 (by decide)).1
  revert this
  decide +kernel

/-- The load of the model may grow without a request: one passenger gets on, the load is two. -/
theorem C58_load_may_jump : ∃ a : Assignment, slowDestination.solves a = true ∧ slowDestination.Uses a 0 0 1 ∧
    a.w 0 1 ≠ a.w 0 0 + (slowDestination.trips[0]).capacity :=
  ⟨ofTables [(0, 0, 1), (0, 1, 2), (0, 2, 3)] [[0, 1, 2, 4]] [[0, 2, 1, 1]], by decide +kernel,
    ⟨by decide, by decide, by decide +kernel⟩, by decide +kernel⟩

end Milp

end Jinete
