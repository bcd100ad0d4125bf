import Verif.Props.Coverage
import Verif.Proofs.FiniteValues

/-!
# C143: With enough vehicles of a kind, which objective values are best
-/

set_option autoImplicit false

namespace Jinete

variable {E : Env} {fleet job : List Nat}

/-- The trips that have passengers. -/
def withPassengers (E : Env) (l : List Nat) : List Nat := l.filter fun t => decide ((E.trip t).capacity ≠ 0)

/-- The distances of the trips that have passengers, in total. -/
def ridden (E : Env) (l : List Nat) : ℚ := ((withPassengers E l).map fun t => (E.trip t).distance E.metric).sum

/-- The bonuses of the trips that have passengers, in total. -/
def bonuses (E : Env) (l : List Nat) : ℚ := ((withPassengers E l).map fun t => (E.trip t).onTimeBonus).sum

theorem withPassengers_append (l l' : List Nat) : withPassengers E (l ++ l') = withPassengers E l ++ withPassengers E l' := List.filter_append _ _

theorem ridden_append (l l' : List Nat) : ridden E (l ++ l') = ridden E l + ridden E l' := by
  unfold ridden
  rw [withPassengers_append, List.map_append, List.sum_append]

theorem bonuses_append (l l' : List Nat) : bonuses E (l ++ l') = bonuses E l + bonuses E l' := by
  unfold bonuses
  rw [withPassengers_append, List.map_append, List.sum_append]

/-- Sums over some of the trips. -/
theorem passengers_sum_le {l l' : List Nat} (hn : l.Nodup) (hs : ∀ t ∈ l, t ∈ l') (f : Nat → ℚ) (hf : ∀ t, 0 ≤ f t) :
    ((withPassengers E l).map f).sum ≤ ((withPassengers E l').map f).sum := by
  have hsub : (withPassengers E l).Subperm (withPassengers E l') := by
    refine List.Nodup.subperm (hn.filter _) fun t ht => ?_
    obtain ⟨h1, h2⟩ := List.mem_filter.1 ht
    exact List.mem_filter.2 ⟨hs t h1, h2⟩
  obtain ⟨m, hm, hml⟩ := hsub
  rw [← (hm.map f).sum_eq]
  refine (hml.map f).sum_le_sum fun x hx => ?_
  obtain ⟨t, _, rfl⟩ := List.mem_map.1 hx
  exact hf t

/-- What a route earns lies between the distances of its trips and those with all bonuses. -/
theorem earned_bounds (hb : ∀ t, 0 ≤ (E.trip t).onTimeBonus) (veh : Vehicle) (l : List Visit) :
    ridden E (l.flatMap Visit.picks) ≤ (((rides E veh l).filter fun x => decide ((E.trip x.trip).capacity ≠ 0)).map (Ride.earned E)).sum ∧
    (((rides E veh l).filter fun x => decide ((E.trip x.trip).capacity ≠ 0)).map (Ride.earned E)).sum ≤
      ridden E (l.flatMap Visit.picks) + bonuses E (l.flatMap Visit.picks) := by
  unfold ridden bonuses withPassengers
  rw [← rides_map_trips (E := E) veh l, List.filter_map, List.map_map, List.map_map]
  have e : (rides E veh l).filter ((fun t => decide ((E.trip t).capacity ≠ 0)) ∘ Ride.trip) =
      (rides E veh l).filter fun x => decide ((E.trip x.trip).capacity ≠ 0) := rfl
  rw [e]
  generalize ((rides E veh l).filter fun x => decide ((E.trip x.trip).capacity ≠ 0)) = xs
  induction xs with
  | nil => simp
  | cons x xs ih =>
    have h0 := hb x.trip
    have h1 : Ride.earned E x = (E.trip x.trip).distance E.metric + if x.pick = (E.trip x.trip).originEarliest then (E.trip x.trip).onTimeBonus else 0 := rfl
    simp only [List.map_cons, List.sum_cons, Function.comp_apply, h1] at ih ⊢
    split_ifs <;> constructor <;> linarith [ih.1, ih.2]

/-- So does what a planning earns. -/
theorem planning_bounds (hb : ∀ t, 0 ≤ (E.trip t).onTimeBonus) (c : Core) (rs : List Nat) :
    ∃ v, planningValue E .hashCode (rs.map (planOf E c)) = [v] ∧ ridden E (rs.flatMap (tripsOf c)) ≤ v ∧
      v ≤ ridden E (rs.flatMap (tripsOf c)) + bonuses E (rs.flatMap (tripsOf c)) := by
  refine ⟨_, rfl, ?_⟩
  induction rs with
  | nil => simp [ridden, bonuses, withPassengers]
  | cons r rs ih =>
    have h1 := earned_bounds hb (E.vehicle (c.route r).vehicle) (itinerary c r)
    have h2 : tripsOf c r = (itinerary c r).flatMap Visit.picks := rfl
    simp only [List.flatMap_cons, List.map_cons, List.sum_cons, ridden_append, bonuses_append, h2, routeValue, planOf, List.getD_cons_zero] at ih ⊢
    constructor <;> linarith [ih.1, ih.2, h1.1, h1.2]

/-- Every good plan serves only trips that the result serves. -/
theorem serves_the_most (hE : EnvOK E) (hf : fleet ≠ []) (hfn : fleet.Nodup) (hjn : job.Nodup) (hx : ∀ t, (E.trip t).timeout = .inf)
    (hlim : ∀ v, (E.vehicle v).timeout = .inf) (halike : ∀ v ∈ fleet, ∀ w ∈ fleet, E.vehicle v = E.vehicle w) (hmany : job.length ≤ fleet.length)
    (tri : NoShortcut E (places E fleet job)) {h h' : Heap} {l : List Nat} (nd : NoDangling h.core) (run : ThoroughRun E fleet job h l h')
    {h2 : Heap} {l2 : List Nat} (hg : GoodPlan E fleet job h2 l2) : ∀ t ∈ l2.flatMap (tripsOf h2.core), t ∈ l.flatMap (tripsOf h'.core) := by
  intro t ht
  rw [C141_served_iff_partial hE hf hfn hjn hx hlim halike hmany tri nd run t]
  obtain ⟨r, hr, htr⟩ := List.mem_flatMap.1 ht
  exact ⟨_, C141_no_others hE hx hlim tri hg hr htr⟩

/-- **C143, Hash Code.** The conditions of `C141_served_iff_partial` and bonuses that are not negative: no good plan, whatever algorithm made it, has a Hash Code value
above that of the result by more than the bonuses of the trips served. -/
theorem C143_hash_code_partial (hE : EnvOK E) (hf : fleet ≠ []) (hfn : fleet.Nodup) (hjn : job.Nodup) (hx : ∀ t, (E.trip t).timeout = .inf)
    (hlim : ∀ v, (E.vehicle v).timeout = .inf) (halike : ∀ v ∈ fleet, ∀ w ∈ fleet, E.vehicle v = E.vehicle w) (hmany : job.length ≤ fleet.length)
    (tri : NoShortcut E (places E fleet job)) (hb : ∀ t, 0 ≤ (E.trip t).onTimeBonus) {h h' : Heap} {l : List Nat} (nd : NoDangling h.core)
    (run : ThoroughRun E fleet job h l h') {h2 : Heap} {l2 : List Nat} (hg : GoodPlan E fleet job h2 l2) :
    ∃ v v2 h3 h4, Objective.hashCode.planning E l h' = (.ok [v], h3) ∧ Objective.hashCode.planning E l2 h2 = (.ok [v2], h4) ∧
      v2 ≤ v + bonuses E (l.flatMap (tripsOf h'.core)) := by
  have g := (run.plan hE hf hfn hjn hx nd).1
  obtain ⟨h3, e3, _⟩ := C38_planning_value (E := E) h' .hashCode l l (List.Perm.refl _) g.planning.sound
  obtain ⟨h4, e4, _⟩ := C38_planning_value (E := E) h2 .hashCode l2 l2 (List.Perm.refl _) hg.planning.sound
  obtain ⟨v, ev, v1, _⟩ := planning_bounds hb h'.core l
  obtain ⟨w, ew, _, w2⟩ := planning_bounds hb h2.core l2
  refine ⟨v, w, h3, h4, by rw [e3, ev], by rw [e4, ew], ?_⟩
  have sub := serves_the_most hE hf hfn hjn hx hlim halike hmany tri nd run hg
  have s1 := passengers_sum_le (E := E) hg.planning.trips sub (fun t => (E.trip t).distance E.metric) fun t => hE.metric _ _
  have s2 := passengers_sum_le (E := E) hg.planning.trips sub (fun t => (E.trip t).onTimeBonus) hb
  unfold ridden at *
  unfold bonuses at *
  linarith

/-- **C143, no bonuses.** Without bonuses the result is optimal for the Hash Code objective, and its value is the distance of the trips it serves that have passengers (`C141`
tells which these are). -/
theorem C143_hash_code_optimal (hE : EnvOK E) (hf : fleet ≠ []) (hfn : fleet.Nodup) (hjn : job.Nodup) (hx : ∀ t, (E.trip t).timeout = .inf)
    (hlim : ∀ v, (E.vehicle v).timeout = .inf) (halike : ∀ v ∈ fleet, ∀ w ∈ fleet, E.vehicle v = E.vehicle w) (hmany : job.length ≤ fleet.length)
    (tri : NoShortcut E (places E fleet job)) (hb : ∀ t, (E.trip t).onTimeBonus = 0) {h h' : Heap} {l : List Nat} (nd : NoDangling h.core)
    (run : ThoroughRun E fleet job h l h') {h2 : Heap} {l2 : List Nat} (hg : GoodPlan E fleet job h2 l2) :
    ∃ v v2 h3 h4, Objective.hashCode.planning E l h' = (.ok [v], h3) ∧ Objective.hashCode.planning E l2 h2 = (.ok [v2], h4) ∧ v2 ≤ v ∧
      v = ridden E (l.flatMap (tripsOf h'.core)) := by
  obtain ⟨v, v2, h3, h4, e1, e2, hle⟩ := C143_hash_code_partial hE hf hfn hjn hx hlim halike hmany tri (fun t => (hb t).ge) nd run hg
  obtain ⟨_, e3, _⟩ := C38_planning_value (E := E) h' .hashCode l l (List.Perm.refl _) (run.plan hE hf hfn hjn hx nd).1.planning.sound
  obtain ⟨w, ew, w1, w2⟩ := planning_bounds (fun t => (hb t).ge) h'.core l
  rw [e1, ew] at e3
  cases e3
  refine ⟨v, v2, h3, h4, e1, e2, ?_⟩
  have : bonuses E (l.flatMap (tripsOf h'.core)) = 0 := by
    unfold bonuses
    rw [List.map_congr_left (g := fun _ => (0 : ℚ)) fun t _ => hb t]
    simp
  rw [this, add_zero] at hle w2
  exact ⟨hle, le_antisymm w2 w1⟩

/-- **C143, Dial-a-Ride.** There, the first component of the Dial-a-Ride value of the result, which is compared first, is the largest of all good plans: the number of trips. -/
theorem C143_dial_a_ride (hE : EnvOK E) (hf : fleet ≠ []) (hfn : fleet.Nodup) (hjn : job.Nodup) (hx : ∀ t, (E.trip t).timeout = .inf)
    (hlim : ∀ v, (E.vehicle v).timeout = .inf) (halike : ∀ v ∈ fleet, ∀ w ∈ fleet, E.vehicle v = E.vehicle w) (hmany : job.length ≤ fleet.length)
    (tri : NoShortcut E (places E fleet job)) {h h' : Heap} {l : List Nat} (nd : NoDangling h.core) (run : ThoroughRun E fleet job h l h')
    {h2 : Heap} {l2 : List Nat} (hg : GoodPlan E fleet job h2 l2) :
    ∃ (n n2 : Nat) (d d2 : ℚ) (h3 h4 : Heap), Objective.dialARide.planning E l h' = (.ok [(n : ℚ), -d], h3) ∧
      Objective.dialARide.planning E l2 h2 = (.ok [(n2 : ℚ), -d2], h4) ∧ n2 ≤ n ∧ n = (l.flatMap (tripsOf h'.core)).length := by
  have g := (run.plan hE hf hfn hjn hx nd).1
  have len : ∀ (c : Core) (rs : List Nat), ((rs.map fun r => ((itinerary c r).flatMap Visit.picks).length).sum) = (rs.flatMap (tripsOf c)).length := by
    intro c rs
    rw [List.length_flatMap]
    rfl
  obtain ⟨h3, e3, _⟩ := C38_dial_a_ride (E := E) h' l l (List.Perm.refl _) g.planning.sound
  obtain ⟨h4, e4, _⟩ := C38_dial_a_ride (E := E) h2 l2 l2 (List.Perm.refl _) hg.planning.sound
  rw [len] at e3 e4
  refine ⟨_, _, _, _, h3, h4, e3, e4, ?_, rfl⟩
  exact (hg.planning.trips.subperm (serves_the_most hE hf hfn hjn hx hlim halike hmany tri nd run hg)).length_le

/-! ## With bonuses -/

/-- The full claim: no good plan has a larger Hash Code value than the result. -/
def HashCodeBest (E : Env) (fleet job : List Nat) : Prop :=
  ∀ (h h' h2 : Heap) (l l2 : List Nat) (v v2 : ℚ), NoDangling h.core → ThoroughRun E fleet job h l h' → GoodPlan E fleet job h2 l2 →
    (Objective.hashCode.planning E l h').1 = .ok [v] → (Objective.hashCode.planning E l2 h2).1 = .ok [v2] → v2 ≤ v

/-- Two vehicles at 0 and two trips on either side that earn a bonus if they start as early as they may; one vehicle cannot earn both. -/
def eastWestEnv : Env where
  metric := manhattan
  trip := fun t => if t = 0 then { origin := { position := [0] }, destination := { position := [10] }, onTimeBonus := 5 }
    else { origin := { position := [-5], earliest := 5 }, destination := { position := [-6] }, onTimeBonus := 5 }
  vehicle := fun _ => { origin := { position := [0] } }

theorem eastWestEnv_ok : EnvOK eastWestEnv where
  metric := demoEnv_ok.metric
  originDuration := by intro t; simp only [eastWestEnv]; split_ifs <;> simp
  destinationDuration := by intro t; simp only [eastWestEnv]; split_ifs <;> simp
  capacity := by intro t; simp only [eastWestEnv]; split_ifs <;> simp

def eastWestSettings (k : Criterion) : Settings := { plainSettings eastWestEnv [0, 1] [0, 1] .intensive 1 with criterion := k }

/-- Insertion with a criterion, and the Hash Code value of the result. -/
def eastWestValue (k : Criterion) : Except Err (List ℚ) :=
  ((do
    let l ← insertionOptimize eastWestEnv .hashCode (fun _ => eastWestSettings k) 4 none
    Objective.hashCode.planning eastWestEnv l : M (List ℚ)) .empty).1

theorem eastWestValue_util : eastWestValue .longestUtilTime = .ok [16] := by decide +kernel

theorem eastWestValue_short : eastWestValue .shortestTime = .ok [21] := by decide +kernel

theorem eastWest_thorough (k : Criterion) {l : List Nat} {h : Heap}
    (e : insertionOptimize eastWestEnv .hashCode (fun _ => eastWestSettings k) 4 none .empty = (.ok l, h)) : ThoroughRun eastWestEnv [0, 1] [0, 1] .empty l h :=
  .insertion .hashCode (fun _ => eastWestSettings k) 4
    (fun _ => ⟨rfl, rfl, rfl, ⟨fun _ l => List.Perm.refl l, fun _ _ h => h, fun _ _ _ h => nomatch h⟩, Nat.one_pos⟩) (fun _ => by intro _ _ _ h; cases h)
    (fun _ => by simp [neighborhoodSize, eastWestSettings, plainSettings]) (fun _ => .inl rfl) e

theorem eastWestValue_ok {k : Criterion} {v : ℚ} (hv : eastWestValue k = .ok [v]) :
    ∃ l h, ThoroughRun eastWestEnv [0, 1] [0, 1] .empty l h ∧ (Objective.hashCode.planning eastWestEnv l h).1 = .ok [v] := by
  unfold eastWestValue at hv
  rcases e : insertionOptimize eastWestEnv .hashCode (fun _ => eastWestSettings k) 4 none .empty with ⟨er | l, h⟩
  · rw [Py.bind_error e] at hv
    cases hv
  · rw [Py.bind_ok e] at hv
    exact ⟨l, h, eastWest_thorough k e, hv⟩

theorem eastWestEnv_rides : ∀ t, (eastWestEnv.trip t).timeout = .inf := by
  intro t
  simp only [eastWestEnv]
  split_ifs <;> rfl

/-- **C143, a bonus is given away.** Two vehicles of a kind for two trips: with the criterion for the longest useful time, insertion gives both trips to the same vehicle,
which earns one bonus; with the criterion for the shortest time each vehicle gets one, and both bonuses are earned. -/
theorem C143_bonus_given_away : ¬ HashCodeBest eastWestEnv [0, 1] [0, 1] := by
  intro hp
  obtain ⟨l, h, r1, e1⟩ := eastWestValue_ok eastWestValue_util
  obtain ⟨l2, h2, r2, e2⟩ := eastWestValue_ok eastWestValue_short
  have := hp .empty h h2 l l2 16 21 empty_noDangling r1 (r2.plan eastWestEnv_ok (by simp) (by decide) (by decide) eastWestEnv_rides empty_noDangling).1 e1 e2
  norm_num at this

/-! ## Cases -/

/-- The places of `eastWestEnv` are on a line, where no detour saves time. -/
theorem eastWest_noShortcut : NoShortcut eastWestEnv (places eastWestEnv [0, 1] [0, 1]) := by
  intro a ha b hb c hc
  have : ∀ q ∈ places eastWestEnv [0, 1] [0, 1], q.length = 1 := by decide +kernel
  exact manhattan_isMetric.triangle a b c (by rw [this a ha, this b hb]) (by rw [this b hb, this c hc])

/-- There, no good plan earns more than 16 and the two bonuses. -/
example {h2 : Heap} {l2 : List Nat} (hg : GoodPlan eastWestEnv [0, 1] [0, 1] h2 l2) :
    ∃ v2 h4, Objective.hashCode.planning eastWestEnv l2 h2 = (.ok [v2], h4) ∧ v2 ≤ 16 + 10 := by
  obtain ⟨l, h, r1, e1⟩ := eastWestValue_ok eastWestValue_util
  have hb : ∀ t, 0 ≤ (eastWestEnv.trip t).onTimeBonus := by intro t; simp only [eastWestEnv]; split_ifs <;> simp
  obtain ⟨v, v2, h3, h4, a1, a2, hle⟩ := C143_hash_code_partial (fleet := [0, 1]) (job := [0, 1]) eastWestEnv_ok (by simp) (by decide) (by decide) eastWestEnv_rides
    (fun _ => rfl) (fun _ _ _ _ => rfl) (by decide) eastWest_noShortcut hb empty_noDangling r1 hg
  refine ⟨v2, h4, a2, hle.trans ?_⟩
  rw [a1] at e1
  have hv : v = 16 := by simpa using e1
  have hp := (r1.plan eastWestEnv_ok (by simp) (by decide) (by decide) eastWestEnv_rides empty_noDangling).1.planning
  have := passengers_sum_le (E := eastWestEnv) hp.trips hp.job (fun t => (eastWestEnv.trip t).onTimeBonus) hb
  have h10 : ((withPassengers eastWestEnv [0, 1]).map fun t => (eastWestEnv.trip t).onTimeBonus).sum = 10 := by decide +kernel
  unfold bonuses
  rw [h10] at this
  rw [hv]
  exact add_le_add_right this 16

/-- The trips of `awayEnv` have no bonus: no good plan there has a larger Hash Code value than insertion. -/
example {l : List Nat} {h h2 : Heap} {l2 : List Nat} (e : insertionOptimize awayEnv .dialARide (fun _ => awaySettings) 4 none .empty = (.ok l, h))
    (hg : GoodPlan awayEnv [0, 1, 2] [0, 1, 2] h2 l2) :
    ∃ v v2 h3 h4, Objective.hashCode.planning awayEnv l h = (.ok [v], h3) ∧ Objective.hashCode.planning awayEnv l2 h2 = (.ok [v2], h4) ∧ v2 ≤ v ∧
      v = ridden awayEnv (l.flatMap (tripsOf h.core)) :=
  C143_hash_code_optimal (fleet := [0, 1, 2]) (job := [0, 1, 2]) awayEnv_ok (by simp) (by decide) (by decide)
    (by intro t; simp only [awayEnv, demoEnv]; split <;> [rfl; (split <;> rfl)]) (fun _ => rfl) (fun _ _ _ _ => rfl) (by decide) away_noShortcut
    (by intro t; simp only [awayEnv, demoEnv]; split <;> [rfl; (split <;> rfl)]) empty_noDangling
    (.insertion .dialARide (fun _ => awaySettings) 4 (fun _ => ⟨rfl, rfl, rfl, plainSettings_fair _ _ _ _, Nat.one_pos⟩) (fun _ => by intro _ _ _ h; cases h)
      (fun _ => by decide) (fun _ => .inl rfl) e) hg

/-- And none has a larger first component of the Dial-a-Ride value than GRASP, whatever the draws. -/
example (D : Nat → Heap → Draws) (hD : ∀ s h, (D s h).OK) (seeds : Nat → Nat) (draw draw' : Nat → Nat → Nat) (threshold fuel : Nat) {l : List Nat} {h h2 : Heap}
    {l2 : List Nat} (e : graspOptimize awayEnv .taxiSharing D (fun _ _ => awaySettings) threshold fuel seeds draw draw' 3 2 .empty = (.ok l, h))
    (hg : GoodPlan awayEnv [0, 1, 2] [0, 1, 2] h2 l2) :
    ∃ (n n2 : Nat) (d d2 : ℚ) (h3 h4 : Heap), Objective.dialARide.planning awayEnv l h = (.ok [(n : ℚ), -d], h3) ∧
      Objective.dialARide.planning awayEnv l2 h2 = (.ok [(n2 : ℚ), -d2], h4) ∧ n2 ≤ n ∧ n = (l.flatMap (tripsOf h.core)).length :=
  C143_dial_a_ride (fleet := [0, 1, 2]) (job := [0, 1, 2]) awayEnv_ok (by simp) (by decide) (by decide)
    (by intro t; simp only [awayEnv, demoEnv]; split <;> [rfl; (split <;> rfl)]) (fun _ => rfl) (fun _ _ _ _ => rfl) (by decide) away_noShortcut
    empty_noDangling
    (.grasp .taxiSharing D (fun _ _ => awaySettings) threshold fuel seeds draw draw' 3 2 hD (fun _ _ => ⟨rfl, rfl, rfl, plainSettings_fair _ _ _ _, Nat.one_pos⟩)
      (fun _ _ => by intro _ _ _ h; cases h) (fun _ _ => by decide) (fun _ _ => .inl rfl) (by omega) (by omega) e) hg

end Jinete
