import Verif.Proofs.RoundedRide
import Verif.Props.Rounded
import Verif.Props.RoundedValue

/-!
# C131: what rides are worth, in floating point

`HashCodeObjective` compares two floats with `==` to decide whether a bonus is gained, `TaxiSharingObjective` subtracts two floats.
-/

set_option autoImplicit false

namespace Jinete

variable {E : Env} {c : Core} {place : Pos → Prop} {H : ℚ}

/-- A service whose numbers are doubles. -/
structure Service.IsDouble (x : Service) : Prop where
  position : ∀ q ∈ x.position, Jinete.IsDouble q
  earliest : Jinete.IsDouble x.earliest
  latest : ∀ q, x.latest = .fin q → Jinete.IsDouble q
  duration : Jinete.IsDouble x.duration

/-- A problem whose numbers are doubles, with distances of the Manhattan metric. -/
structure DoubleProblem (E : Env) : Prop where
  metric : E.metric = manhattan
  origin : ∀ t, (E.trip t).origin.IsDouble
  destination : ∀ t, (E.trip t).destination.IsDouble
  bonus : ∀ t, IsDouble (E.trip t).onTimeBonus
  timeout : ∀ t q, (E.trip t).timeout = .fin q → IsDouble q
  start : ∀ v, (E.vehicle v).origin.IsDouble
  final : ∀ v, (E.vehicle v).destination.IsDouble

/-- The value of a planning for Hash Code, computed in doubles. -/
def earnedDouble (E : Env) (c : Core) (routes : List Nat) : Except Err ℚ :=
  (doubles (manhattanRounded roundDouble)).planningWorth c ((doubles (manhattanRounded roundDouble)).tripEarned E c) routes

/-- The value of a planning for Taxi-Sharing, computed in doubles. -/
def riddenDouble (E : Env) (c : Core) (routes : List Nat) : Except Err ℚ :=
  (doubles (manhattanRounded roundDouble)).planningWorth c ((doubles (manhattanRounded roundDouble)).tripRidden E c) routes

/-- What one would like: the computed values are those of the schedule. -/
def EarningsExact : Prop :=
  ∀ (E : Env) (c : Core) (routes : List Nat), EnvOK E → DoubleProblem E → (∀ r ∈ routes, WellFormed c r) →
    ∀ v, earnedDouble E c routes = .ok v → planningValue E .hashCode (routes.map (planOf E c)) = [v]

/-- The same for Taxi-Sharing. -/
def RidingTimesExact : Prop :=
  ∀ (E : Env) (c : Core) (routes : List Nat), EnvOK E → DoubleProblem E → (∀ r ∈ routes, WellFormed c r) →
    ∀ v, riddenDouble E c routes = .ok v → planningValue E .taxiSharing (routes.map (planOf E c)) = [v]

/-! ## Integers -/

theorem doubles_whole (hm : E.metric = manhattan) (hI : E.Integral place) (hx : ∀ a, place a → ∀ x ∈ a, IsInt x)
    (hS : E.Small manhattan place (H / 8)) (h1 : 1 ≤ H) (hH : H < 2 ^ 53) : (doubles (manhattanRounded roundDouble)).Whole E place H :=
  { toSmall := by rw [hm]; exact hS
    whole := hI
    keep := fun q hq h => hq.round (lt_of_le_of_lt h hH)
    dist := fun a b ha hb => by
      rw [hm]
      refine manhattanRounded_exact (hx a ha) (hx b hb) ?_
      have := le_trans (le_abs_self _) (hS.far a b ha hb)
      linarith
    one := h1 }

theorem routeValue_rides {r : Nat} (hw : WellFormed c r) {k : Objective} (hk : k ≠ .dialARide) :
    routeValue E (E.vehicle (c.route r).vehicle) (itinerary c r) k =
      [((c.route r).stops.map fun s => ((c.stop s).pickups.map fun p => rideValue E (rideOf E c p) k).sum).sum] := by
  have e : ((routePlannedTrips c r).map fun p => rideValue E (rideOf E c p) k).sum =
      ((c.route r).stops.map fun s => ((c.stop s).pickups.map fun p => rideValue E (rideOf E c p) k).sum).sum := by
    unfold routePlannedTrips
    induction (c.route r).stops with
    | nil => rfl
    | cons s l ih => simp [ih]
  rw [← e]
  cases k with
  | dialARide => exact absurd rfl hk
  | taxiSharing =>
    simp only [routeValue, hw.rides_eq]
    rw [sum_filter_zero _ (fun x : Ride => (E.trip x.trip).capacity = 0), List.map_map]
    rfl
  | hashCode =>
    simp only [routeValue, hw.rides_eq]
    rw [sum_filter_zero _ (fun x : Ride => (E.trip x.trip).capacity = 0), List.map_map]
    rfl

theorem planningValue_rides {routes : List Nat} (hw : ∀ r ∈ routes, WellFormed c r) {k : Objective} (hk : k ≠ .dialARide) :
    planningValue E k (routes.map (planOf E c)) =
      [(routes.map fun r => ((c.route r).stops.map fun s => ((c.stop s).pickups.map fun p => rideValue E (rideOf E c p) k).sum).sum).sum] := by
  have hd : k.dim = 1 := by cases k <;> first | rfl | exact absurd rfl hk
  unfold planningValue columnSums
  rw [hd]
  simp only [List.range_one, List.map_cons, List.map_nil, List.map_map]
  congr 2
  refine List.map_congr_left fun r hr => ?_
  simp only [Function.comp_def, planOf, routeValue_rides (hw r hr) hk]
  rfl

theorem le_sum_of_mem {α : Type} {l : List α} {g : α → ℚ} (h0 : ∀ x ∈ l, 0 ≤ g x) {x : α} (hx : x ∈ l) : g x ≤ (l.map g).sum :=
  List.single_le_sum (fun y hy => by obtain ⟨z, hz, rfl⟩ := List.mem_map.1 hy; exact h0 z hz) _ (List.mem_map_of_mem hx)

theorem rideValue_earned (p : Nat) : rideValue E (rideOf E c p) .hashCode = if (E.trip (c.pt p).trip).capacity = 0 then 0 else
    E.metric (E.trip (c.pt p).trip).origin.position (E.trip (c.pt p).trip).destination.position +
      if (tmAt E c (pickStop c p)).dep = (E.trip (c.pt p).trip).originEarliest then (E.trip (c.pt p).trip).onTimeBonus else 0 := rfl

theorem rideValue_ridden (p : Nat) : rideValue E (rideOf E c p) .taxiSharing = if (E.trip (c.pt p).trip).capacity = 0 then 0 else
    (tmAt E c (dropStop c p)).start - (tmAt E c (pickStop c p)).dep := rfl

/-- If every planned trip is valued exactly by a whole number, then so is a planning. -/
theorem planningWorth_exact {dist : Pos → Pos → ℚ} {f : Nat → Except Err ℚ} {g : Nat → ℚ} {routes : List Nat}
    (hg : ∀ r ∈ routes, ∀ s ∈ (c.route r).stops, ∀ p ∈ (c.stop s).pickups, IsInt (g p) ∧ 0 ≤ g p)
    (hf : ∀ r ∈ routes, ∀ s ∈ (c.route r).stops, ∀ p ∈ (c.stop s).pickups, g p < 2 ^ 53 → f p = .ok (g p))
    (hb : (routes.map fun r => ((c.route r).stops.map fun s => ((c.stop s).pickups.map g).sum).sum).sum < 2 ^ 53) :
    (doubles dist).planningWorth c f routes =
      .ok (routes.map fun r => ((c.route r).stops.map fun s => ((c.stop s).pickups.map g).sum).sum).sum := by
  have keep : ∀ q, IsInt q → |q| < 2 ^ 53 → (doubles dist).round q = q := fun q hq h => hq.round h
  have i1 : ∀ r ∈ routes, ∀ s ∈ (c.route r).stops, IsInt ((c.stop s).pickups.map g).sum ∧ 0 ≤ ((c.stop s).pickups.map g).sum := by
    intro r hr s hs
    constructor
    · exact IsInt.sum fun x hx => by obtain ⟨p, hp, rfl⟩ := List.mem_map.1 hx; exact (hg r hr s hs p hp).1
    · exact List.sum_nonneg fun x hx => by obtain ⟨p, hp, rfl⟩ := List.mem_map.1 hx; exact (hg r hr s hs p hp).2
  have i2 : ∀ r ∈ routes, IsInt ((c.route r).stops.map fun s => ((c.stop s).pickups.map g).sum).sum ∧
      0 ≤ ((c.route r).stops.map fun s => ((c.stop s).pickups.map g).sum).sum := by
    intro r hr
    constructor
    · exact IsInt.sum fun x hx => by obtain ⟨s, hs, rfl⟩ := List.mem_map.1 hx; exact (i1 r hr s hs).1
    · exact List.sum_nonneg fun x hx => by obtain ⟨s, hs, rfl⟩ := List.mem_map.1 hx; exact (i1 r hr s hs).2
  refine Reckoning.addUp_exact keep (fun r hr => ?_) i2 hb
  have b1 := lt_of_le_of_lt (le_sum_of_mem (fun r hr => (i2 r hr).2) hr) hb
  refine Reckoning.addUp_exact keep (fun s hs => ?_) (i1 r hr) b1
  have b2 := lt_of_le_of_lt (le_sum_of_mem (fun s hs => (i1 r hr s hs).2) hs) b1
  refine Reckoning.addUp_exact keep (fun p hp => ?_) (hg r hr s hs) b2
  exact hf r hr s hs p hp (lt_of_le_of_lt (le_sum_of_mem (fun p hp => (hg r hr s hs p hp).2) hp) b2)

section
variable (hE : EnvOK E) {routes : List Nat} (hw : ∀ r ∈ routes, WellFormed c r) (hm : E.metric = manhattan)
  (hI : E.Integral place) (hx : ∀ a, place a → ∀ x ∈ a, IsInt x) (hS : E.Small manhattan place (H / 8)) (h1 : 1 ≤ H) (hH : H < 2 ^ 53)
  (hq : ∀ r ∈ routes, ∀ s ∈ (c.route r).stops, ∀ q ∈ (c.stop s).start, IsInt q)
  (hpl : ∀ r ∈ routes, ∀ s ∈ (c.route r).stops, place (c.stop s).position)
  (hd : ∀ r ∈ routes, ∀ y ∈ (routeTimetable E c r).getLast?, y.dep ≤ H / 4)
include hE hw hm hI hx hS h1 hH hq hpl hd

/-- **C131**, Hash Code: for a problem in integers with the Manhattan metric, small compared to `2⁵³`, the value of a planning in
doubles is what its rides earn; in particular exactly the rides that leave at their earliest time gain the bonus.
Missing: problems with fractions, for which `C131_bonus_by_rounding` refutes `EarningsExact`. -/
theorem C131_integer_earnings_partial (hB : ∀ t, IsInt (E.trip t).onTimeBonus ∧ 0 ≤ (E.trip t).onTimeBonus)
    (hb : ∀ v ∈ planningValue E .hashCode (routes.map (planOf E c)), v < 2 ^ 53) :
    ∃ v, earnedDouble E c routes = .ok v ∧ planningValue E .hashCode (routes.map (planOf E c)) = [v] := by
  have hW := doubles_whole hm hI hx hS h1 hH
  rw [planningValue_rides hw (by decide)] at hb ⊢
  refine ⟨_, planningWorth_exact (g := fun p => rideValue E (rideOf E c p) .hashCode) (fun r hr s hs p hp => ?_) (fun r hr s hs p hp hlt => ?_) (hb _ (by simp)), rfl⟩
  · have id := hI.metric _ _ (hS.ends (c.pt p).trip).1 (hS.ends (c.pt p).trip).2
    have nd := hE.metric (E.trip (c.pt p).trip).origin.position (E.trip (c.pt p).trip).destination.position
    obtain ⟨ib, nb⟩ := hB (c.pt p).trip
    simp only [rideValue_earned]
    by_cases h0 : (E.trip (c.pt p).trip).capacity = 0
    · rw [if_pos h0]; exact ⟨IsInt.zero, le_rfl⟩
    · rw [if_neg h0]
      by_cases h2 : (tmAt E c (pickStop c p)).dep = (E.trip (c.pt p).trip).originEarliest
      · rw [if_pos h2]; exact ⟨id.add ib, by linarith⟩
      · rw [if_neg h2]; exact ⟨id.add IsInt.zero, by linarith⟩
  · obtain ⟨u, d, pre, mid, suf, e, hu, hdl, hpu, _⟩ := (hw r hr).stops_of (List.mem_flatMap.2 ⟨s, hs, hp⟩)
    have hus : u ∈ (c.route r).stops := by rw [e]; simp
    have ht := hW.at hE (hw r hr) (hd r hr) (hpl r hr) (hq r hr) hus
    have id := hI.metric _ _ (hS.ends (c.pt p).trip).1 (hS.ends (c.pt p).trip).2
    have nd := hE.metric (E.trip (c.pt p).trip).origin.position (E.trip (c.pt p).trip).destination.position
    obtain ⟨ib, nb⟩ := hB (c.pt p).trip
    have ed := hW.dist _ _ (hS.ends (c.pt p).trip).1 (hS.ends (c.pt p).trip).2
    have ep : pickStop c p = u := by simp [pickStop, hu]
    unfold Reckoning.tripEarned
    simp only [rideValue_earned, ep] at hlt ⊢
    by_cases h0 : (E.trip (c.pt p).trip).capacity = 0
    · rw [if_pos (show (ptTrip E c p).capacity = 0 from h0), if_pos h0]
    · rw [if_neg (show ¬ (ptTrip E c p).capacity = 0 from h0), if_neg h0, hu]
      rw [if_neg h0] at hlt
      simp only [Reckoning.present, bind, Except.bind, Reckoning.timesOf_at (hw r hr).toChained hus, ptTrip,
        hW.originEarliest, ht.1.2, ed, eq_comm (a := (E.trip (c.pt p).trip).originEarliest)]
      by_cases h2 : (tmAt E c u).dep = (E.trip (c.pt p).trip).originEarliest
      · rw [if_pos h2, if_pos h2]
        rw [if_pos h2] at hlt
        congr 1
        exact (id.add ib).round (by rw [abs_of_nonneg (by linarith)]; exact hlt)
      · rw [if_neg h2, if_neg h2, add_zero]

/-- **C131**, Taxi-Sharing: for such a problem the value of a planning in doubles is the time its passengers spend on board.
Missing: problems with fractions, for which `C131_rides_rounded` refutes `RidingTimesExact`. -/
theorem C131_integer_rides_partial (hb : ∀ v ∈ planningValue E .taxiSharing (routes.map (planOf E c)), v < 2 ^ 53) :
    ∃ v, riddenDouble E c routes = .ok v ∧ planningValue E .taxiSharing (routes.map (planOf E c)) = [v] := by
  have hW := doubles_whole hm hI hx hS h1 hH
  rw [planningValue_rides hw (by decide)] at hb ⊢
  have key : ∀ r ∈ routes, ∀ s ∈ (c.route r).stops, ∀ p ∈ (c.stop s).pickups, ∃ u d, (c.pt p).pickup = some u ∧ (c.pt p).delivery = some d ∧
      u ∈ (c.route r).stops ∧ d ∈ (c.route r).stops ∧ (tmAt E c u).dep ≤ (tmAt E c d).start := by
    intro r hr s hs p hp
    obtain ⟨u, d, pre, mid, suf, e, hu, hdl, _, _⟩ := (hw r hr).stops_of (List.mem_flatMap.2 ⟨s, hs, hp⟩)
    exact ⟨u, d, hu, hdl, by rw [e]; simp, by rw [e]; simp, le_trans ((hw r hr).dep_le_arr hE e) (start_ge_arr _ _ _)⟩
  refine ⟨_, planningWorth_exact (g := fun p => rideValue E (rideOf E c p) .taxiSharing) (fun r hr s hs p hp => ?_) (fun r hr s hs p hp hlt => ?_) (hb _ (by simp)), rfl⟩
  all_goals
    obtain ⟨u, d, hu, hdl, hus, hds, hle⟩ := key r hr s hs p hp
    have tu := hW.at hE (hw r hr) (hd r hr) (hpl r hr) (hq r hr) hus
    have td := hW.at hE (hw r hr) (hd r hr) (hpl r hr) (hq r hr) hds
    have ep : pickStop c p = u := by simp [pickStop, hu]
    have ed : dropStop c p = d := by simp [dropStop, hdl]
  · simp only [rideValue_ridden, ep, ed]
    by_cases h0 : (E.trip (c.pt p).trip).capacity = 0
    · rw [if_pos h0]; exact ⟨IsInt.zero, le_rfl⟩
    · rw [if_neg h0]; exact ⟨td.2.1.1.sub tu.2.1.2, by linarith⟩
  · unfold Reckoning.tripRidden
    simp only [rideValue_ridden, ep, ed] at hlt ⊢
    by_cases h0 : (E.trip (c.pt p).trip).capacity = 0
    · rw [if_pos (show (ptTrip E c p).capacity = 0 from h0), if_pos h0]
    · rw [if_neg (show ¬ (ptTrip E c p).capacity = 0 from h0), if_neg h0, hu, hdl]
      rw [if_neg h0] at hlt
      simp only [Reckoning.present, bind, Except.bind, Reckoning.timesOf_at (hw r hr).toChained hus,
        Reckoning.timesOf_at (hw r hr).toChained hds, td.1.1, tu.1.2]
      congr 1
      exact (td.2.1.1.sub tu.2.1.2).round (by rw [abs_of_nonneg (by linarith)]; exact hlt)

end

/-! ## A bonus gained by rounding -/

/-- The trip starts `2⁻⁵³` away from the depot of a vehicle that opens at the earliest time of the trip. -/
def nearEnv : Env where
  metric := manhattan
  trip := fun _ =>
    { origin := { position := [1 / 2 ^ 53], earliest := 1 }
      destination := { position := [1] }
      onTimeBonus := 1 }
  vehicle := fun _ => { origin := { position := [0], earliest := 1 } }

/-- The route that serves it. -/
def nearHeap : Heap := ((newRoute nearEnv 0 >>= fun r => compute nearEnv true r [0] 0 1) Heap.empty).2

theorem nearEnv_ok : EnvOK nearEnv where
  metric := manhattan_nonneg
  originDuration := fun _ => le_rfl
  destinationDuration := fun _ => le_rfl
  capacity := fun _ => by simp only [nearEnv]; decide +kernel

theorem near_wellFormed : WellFormed nearHeap.core 1 := wfB_sound (by decide +kernel)

theorem isDouble_one : IsDouble 1 := ⟨1, 0, by norm_num, by simp⟩
theorem isDouble_nil : IsDouble 0 := ⟨0, 0, by norm_num, by simp⟩

theorem nearEnv_doubles : DoubleProblem nearEnv where
  metric := rfl
  origin := fun _ => ⟨fun q hq => by
    rw [List.mem_singleton.1 hq]
    have : roundDouble (1 / 2 ^ 53) = 1 / 2 ^ 53 := by decide +kernel
    rw [← this]
    exact roundDouble_repr _, isDouble_one, fun q h => (by cases h), isDouble_nil⟩
  destination := fun _ => ⟨fun q hq => by rw [List.mem_singleton.1 hq]; exact isDouble_one, isDouble_nil, fun q h => (by cases h), isDouble_nil⟩
  bonus := fun _ => isDouble_one
  timeout := fun _ q h => by cases h
  start := fun _ => ⟨fun q hq => by rw [List.mem_singleton.1 hq]; exact isDouble_nil, isDouble_one, fun q h => (by cases h), isDouble_nil⟩
  final := fun _ => ⟨fun q hq => by rw [List.mem_singleton.1 hq]; exact isDouble_nil, isDouble_one, fun q h => (by cases h), isDouble_nil⟩

/-- `EarningsExact` is false: the vehicle is late, but in doubles it is on time and the bonus is counted. -/
theorem C131_bonus_by_rounding : ¬ EarningsExact := fun h =>
  absurd (h nearEnv nearHeap.core [1] nearEnv_ok nearEnv_doubles (fun r hr => by rw [List.mem_singleton.1 hr]; exact near_wellFormed) 2
    (by decide +kernel)) (by decide +kernel)

/-- `RidingTimesExact` is false there as well. -/
theorem C131_rides_rounded : ¬ RidingTimesExact := fun h =>
  absurd (h nearEnv nearHeap.core [1] nearEnv_ok nearEnv_doubles (fun r hr => by rw [List.mem_singleton.1 hr]; exact near_wellFormed) 1
    (by decide +kernel)) (by decide +kernel)

/-- The exact values: the bonus of 1 is not earned. -/
example : planningValue nearEnv .hashCode ([1].map (planOf nearEnv nearHeap.core)) = [1 - 1 / 2 ^ 53] := by decide +kernel

/-! ## A problem in integers -/

/-- The demo problem with a bonus of 10 for each trip: the second leaves at its earliest time, the first does not. -/
def prizeEnv : Env := { demoEnv with trip := fun t => { demoEnv.trip t with onTimeBonus := 10 } }

theorem prizeEnv_ok : EnvOK prizeEnv := ⟨demoEnv_ok.metric, demoEnv_ok.originDuration, demoEnv_ok.destinationDuration, demoEnv_ok.capacity⟩

theorem prizeEnv_small : prizeEnv.Small manhattan demoPlace (2 ^ 20 / 8) :=
  ⟨demoEnv_small.far, demoEnv_small.depots, demoEnv_small.ends, demoEnv_small.origin, demoEnv_small.destination, demoEnv_small.timeout,
    demoEnv_small.start, demoEnv_small.final, demoEnv_small.shift, demoEnv_small.room⟩

theorem prizeEnv_integral : prizeEnv.Integral demoPlace := by
  have h := demoEnv_integral
  constructor
  all_goals first | exact h.metric | exact h.origin | exact h.destination | exact h.timeout | exact h.start | exact h.capacity | exact h.shift | exact h.room

theorem prize_places : ∀ a ∈ ([[0], [2], [4], [6], [8]] : List Pos), ∀ x ∈ a, x = (x.num : ℚ) := by decide +kernel

/-- Its route earns 6 for the first trip, 2 and the bonus for the second. -/
example : earnedDouble prizeEnv demoHeap.core [2] = .ok 18 ∧
    planningValue prizeEnv .hashCode ([2].map (planOf prizeEnv demoHeap.core)) = [18] := by
  have e : earnedDouble prizeEnv demoHeap.core [2] = .ok 18 := by decide +kernel
  obtain ⟨v, h, hv⟩ := C131_integer_earnings_partial (E := prizeEnv) (c := demoHeap.core) (place := demoPlace) (H := 2 ^ 20) (routes := [2])
    prizeEnv_ok (fun r hr => by rw [List.mem_singleton.1 hr]; exact demo_ok.2.1) rfl prizeEnv_integral
    (fun a ha x hx => ⟨_, prize_places a ha x hx⟩) prizeEnv_small (by norm_num) (by norm_num)
    (by
      have : ∀ r ∈ [2], ∀ s ∈ (demoHeap.core.route r).stops, (demoHeap.core.stop s).start = none := by decide +kernel
      intro r hr s hs q hq; rw [this r hr s hs] at hq; cases hq)
    (by
      have : ∀ r ∈ [2], ∀ s ∈ (demoHeap.core.route r).stops, (demoHeap.core.stop s).position ∈ ([[0], [2], [4], [6], [8]] : List Pos) := by
        decide +kernel
      exact this)
    (by decide +kernel) (fun t => ⟨⟨10, by simp [prizeEnv]⟩, by simp [prizeEnv]⟩) (by decide +kernel)
  rw [e] at h
  cases h
  exact ⟨e, hv⟩

/-- Its passengers spend 23 and 2 on board. -/
example : riddenDouble prizeEnv demoHeap.core [2] = .ok 25 ∧
    planningValue prizeEnv .taxiSharing ([2].map (planOf prizeEnv demoHeap.core)) = [25] := by
  have e : riddenDouble prizeEnv demoHeap.core [2] = .ok 25 := by decide +kernel
  obtain ⟨v, h, hv⟩ := C131_integer_rides_partial (E := prizeEnv) (c := demoHeap.core) (place := demoPlace) (H := 2 ^ 20) (routes := [2])
    prizeEnv_ok (fun r hr => by rw [List.mem_singleton.1 hr]; exact demo_ok.2.1) rfl prizeEnv_integral
    (fun a ha x hx => ⟨_, prize_places a ha x hx⟩) prizeEnv_small (by norm_num) (by norm_num)
    (by
      have : ∀ r ∈ [2], ∀ s ∈ (demoHeap.core.route r).stops, (demoHeap.core.stop s).start = none := by decide +kernel
      intro r hr s hs q hq; rw [this r hr s hs] at hq; cases hq)
    (by
      have : ∀ r ∈ [2], ∀ s ∈ (demoHeap.core.route r).stops, (demoHeap.core.stop s).position ∈ ([[0], [2], [4], [6], [8]] : List Pos) := by
        decide +kernel
      exact this)
    (by decide +kernel) (by decide +kernel)
  rw [e] at h
  cases h
  exact ⟨e, hv⟩

end Jinete
