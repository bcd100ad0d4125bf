import Verif.Model.Planning
import Verif.Props.SameTrips

/-!
# C142: What a result says about itself, and its coverage rate
-/

set_option autoImplicit false

namespace Jinete

variable {E : Env} {fleet fleet' job : List Nat}

theorem planningTrips_eq (c : Core) (routes : List Nat) : planningTrips c routes = routes.flatMap (tripsOf c) := by
  unfold planningTrips planningPlannedTrips
  rw [List.map_flatMap]
  congr 1
  funext r
  rw [tripsOf_eq]
  rfl

/-- **C142, the planning.** Of a good plan, `Planning.vehicles` yields every vehicle of the fleet once, `Planning.planned_trips` no object twice and
`Planning.trips` exactly the trips that its routes serve, all of the job, none twice; each planned trip is picked up and dropped on the route of the planning that holds it. -/
theorem C142_planning {h : Heap} {rs : List Nat} (hg : GoodPlan E fleet job h rs) :
    (planningVehicles h.core rs).Perm fleet ∧ (planningPlannedTrips h.core rs).Nodup ∧ (planningTrips h.core rs).Nodup ∧
    (∀ t ∈ planningTrips h.core rs, t ∈ job) ∧ (∀ t, t ∈ planningTrips h.core rs ↔ ∃ r ∈ rs, t ∈ tripsOf h.core r) ∧
    ∀ p ∈ planningPlannedTrips h.core rs, ∃ r ∈ rs, ∃ s ∈ (h.core.route r).stops, ∃ d ∈ (h.core.route r).stops,
      (h.core.pt p).pickup = some s ∧ (h.core.pt p).delivery = some d := by
  have ht : (planningTrips h.core rs).Nodup := by rw [planningTrips_eq]; exact hg.planning.trips
  refine ⟨hg.planning.vehicles, ht.of_map _, ht, fun t h1 => ?_, fun t => by rw [planningTrips_eq, List.mem_flatMap], fun p hp => ?_⟩
  · rw [planningTrips_eq] at h1
    exact hg.planning.job t h1
  · obtain ⟨r, hr, hp⟩ := List.mem_flatMap.1 hp
    obtain ⟨s, hs, hp⟩ := List.mem_flatMap.1 hp
    obtain ⟨a, b, e⟩ := List.append_of_mem hs
    obtain ⟨_, h1, d, hd, h2, _⟩ := (hg.planning.sound r hr).1.pick a s b e p hp
    exact ⟨r, hr, s, hs, d, by rw [e]; simp [hd], h1, h2⟩

open Classical in
/-- The share of the job that has passengers and that some vehicle of the fleet can serve alone. -/
noncomputable def servableShare (E : Env) (fleet job : List Nat) : ℚ :=
  ((job.filter fun t => decide ((E.trip t).capacity ≠ 0 ∧ ∃ v ∈ fleet, FeasibleItinerary E (E.vehicle v) (alone E v t))).length : ℚ) / job.length

/-- **C142.** The conditions of `C141_served_iff_partial`: the coverage rate of the result is the share of the job that has passengers and that a vehicle can
serve alone. -/
theorem C142_coverage_rate (hE : EnvOK E) (hf : fleet ≠ []) (hfn : fleet.Nodup) (hjn : job.Nodup) (hj : job ≠ []) (hx : ∀ t, (E.trip t).timeout = .inf)
    (hlim : ∀ v, (E.vehicle v).timeout = .inf) (halike : ∀ v ∈ fleet, ∀ w ∈ fleet, E.vehicle v = E.vehicle w) (hmany : job.length ≤ fleet.length)
    (tri : NoShortcut E (places E fleet job)) {h h' : Heap} {l : List Nat} (nd : NoDangling h.core) (run : ThoroughRun E fleet job h l h') :
    coverageRate E job l h' = (.ok (servableShare E fleet job), h') := by
  have iff := C141_served_iff_partial hE hf hfn hjn hx hlim halike hmany tri nd run
  obtain ⟨q, e, hq, -⟩ := C47_coverage_rate (E := E) h' job l hjn hj fun r hr t ht =>
    (run.plan hE hf hfn hjn hx nd).1.planning.job t (List.mem_flatMap.2 ⟨r, hr, ht⟩)
  rw [e, hq]
  unfold servableShare coveredTrips
  congr 5
  refine List.filter_congr fun t ht => ?_
  simp only [decide_eq_decide]
  refine and_congr_right fun _ => ?_
  rw [← List.mem_flatMap, iff t]
  exact ⟨fun ⟨v, hv, h1⟩ => ⟨v, hv, h1.2⟩, fun ⟨v, hv, h1⟩ => ⟨v, hv, ht, h1⟩⟩

/-- **C142, the best.** There, no good plan for the same job and fleet, whatever algorithm made it, has a higher coverage rate. -/
theorem C142_best_coverage (hE : EnvOK E) (hf : fleet ≠ []) (hfn : fleet.Nodup) (hjn : job.Nodup) (hj : job ≠ []) (hx : ∀ t, (E.trip t).timeout = .inf)
    (hlim : ∀ v, (E.vehicle v).timeout = .inf) (halike : ∀ v ∈ fleet, ∀ w ∈ fleet, E.vehicle v = E.vehicle w) (hmany : job.length ≤ fleet.length)
    (tri : NoShortcut E (places E fleet job)) {h h' : Heap} {l : List Nat} (nd : NoDangling h.core) (run : ThoroughRun E fleet job h l h')
    {h2 : Heap} {l2 : List Nat} (hg : GoodPlan E fleet job h2 l2) :
    ∃ q q2, coverageRate E job l h' = (.ok q, h') ∧ coverageRate E job l2 h2 = (.ok q2, h2) ∧ q2 ≤ q := by
  have iff := C141_served_iff_partial hE hf hfn hjn hx hlim halike hmany tri nd run
  obtain ⟨q, e, hq, -⟩ := C47_coverage_rate (E := E) h' job l hjn hj fun r hr t ht =>
    (run.plan hE hf hfn hjn hx nd).1.planning.job t (List.mem_flatMap.2 ⟨r, hr, ht⟩)
  obtain ⟨q2, e2, hq2, -⟩ := C47_coverage_rate (E := E) h2 job l2 hjn hj fun r hr t ht => hg.planning.job t (List.mem_flatMap.2 ⟨r, hr, ht⟩)
  refine ⟨q, q2, e, e2, ?_⟩
  rw [hq, hq2]
  have : (coveredTrips E h2.core job l2).length ≤ (coveredTrips E h'.core job l).length := by
    refine (List.Nodup.subperm (hjn.filter _) fun t ht => ?_).length_le
    obtain ⟨htj, ht⟩ := List.mem_filter.1 ht
    rw [decide_eq_true_eq] at ht
    obtain ⟨h0, r, hr, htr⟩ := ht
    refine List.mem_filter.2 ⟨htj, ?_⟩
    rw [decide_eq_true_eq, ← List.mem_flatMap, iff t]
    exact ⟨h0, _, C141_no_others hE hx hlim tri hg hr htr⟩
  gcongr

/-- **C142, the same.** Two fleets of vehicles of one kind as in `C141_same_trips_partial`: the coverage rates are equal. -/
theorem C142_same_coverage (hE : EnvOK E) (hf : fleet ≠ []) (hfn : fleet.Nodup) (hf' : fleet' ≠ []) (hfn' : fleet'.Nodup) (hjn : job.Nodup) (hj : job ≠ [])
    (hx : ∀ t, (E.trip t).timeout = .inf) (hlim : ∀ v, (E.vehicle v).timeout = .inf)
    (halike : ∀ v ∈ fleet ++ fleet', ∀ w ∈ fleet ++ fleet', E.vehicle v = E.vehicle w) (hmany : job.length ≤ fleet.length) (hmany' : job.length ≤ fleet'.length)
    (tri : NoShortcut E (places E fleet job)) {h h1 h2 h3 : Heap} {l l' : List Nat} (nd : NoDangling h.core) (run : ThoroughRun E fleet job h l h1)
    (nd' : NoDangling h2.core) (run' : ThoroughRun E fleet' job h2 l' h3) : ∃ q, coverageRate E job l h1 = (.ok q, h1) ∧ coverageRate E job l' h3 = (.ok q, h3) := by
  have hp := C141_same_trips_partial hE hf hfn hf' hfn' hjn hx hlim halike hmany hmany' tri nd run nd' run'
  obtain ⟨q, e, hq, -⟩ := C47_coverage_rate (E := E) h1 job l hjn hj fun r hr t ht =>
    (run.plan hE hf hfn hjn hx nd).1.planning.job t (List.mem_flatMap.2 ⟨r, hr, ht⟩)
  obtain ⟨q2, e2, hq2, -⟩ := C47_coverage_rate (E := E) h3 job l' hjn hj fun r hr t ht =>
    (run'.plan hE hf' hfn' hjn hx nd').1.planning.job t (List.mem_flatMap.2 ⟨r, hr, ht⟩)
  refine ⟨q, e, ?_⟩
  rw [e2, hq2, hq]
  unfold coveredTrips
  congr 5
  refine List.filter_congr fun t _ => ?_
  simp only [decide_eq_decide, ← List.mem_flatMap]
  rw [hp.mem_iff]

/-! ## Cases -/

/-- Two of three trips served: the coverage rate of `awayEnv` is two thirds, and that is the share of the job that can be served. -/
example : ∃ l h, insertionOptimize awayEnv .dialARide (fun _ => awaySettings) 4 none .empty = (.ok l, h) ∧
    coverageRate awayEnv [0, 1, 2] l h = (.ok (2 / 3), h) ∧ servableShare awayEnv [0, 1, 2] [0, 1, 2] = 2 / 3 := by
  have hrun : ((do
      let l ← insertionOptimize awayEnv .dialARide (fun _ => awaySettings) 4 none
      coverageRate awayEnv [0, 1, 2] l : M ℚ) .empty).1 = .ok (2 / 3) := by decide +kernel
  rcases e : insertionOptimize awayEnv .dialARide (fun _ => awaySettings) 4 none .empty with ⟨er | l, h⟩
  · rw [Py.bind_error e] at hrun
    cases hrun
  · rw [Py.bind_ok e] at hrun
    have hc := C142_coverage_rate (fleet := [0, 1, 2]) (job := [0, 1, 2]) awayEnv_ok (by simp) (by decide) (by decide) (by simp)
      (by intro t; simp only [awayEnv, demoEnv]; split <;> [rfl; (split <;> rfl)]) (fun _ => rfl) (fun _ _ _ _ => rfl) (by decide) away_noShortcut
      empty_noDangling
      (.insertion .dialARide (fun _ => awaySettings) 4 (fun _ => ⟨rfl, rfl, rfl, plainSettings_fair _ _ _ _, Nat.one_pos⟩) (fun _ => by intro _ _ _ h; cases h)
        (fun _ => by decide) (fun _ => .inl rfl) e)
    rw [hc] at hrun
    have hq : servableShare awayEnv [0, 1, 2] [0, 1, 2] = 2 / 3 := by simpa using hrun
    exact ⟨l, h, rfl, by rw [hc, hq], hq⟩

/-- The planning of `awayRun`: three vehicles, two planned trips, two trips. -/
example : (match awayRun.1 with
    | .ok l => decide ((planningVehicles awayRun.2.heap.core l).Perm [0, 1, 2]) && decide ((planningPlannedTrips awayRun.2.heap.core l).length = 2) &&
      decide ((planningTrips awayRun.2.heap.core l).Perm [0, 1])
    | .error _ => false) = true := by decide +kernel

end Jinete
