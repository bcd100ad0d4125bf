import Verif.Proofs.Verdict

/-!
# The computed verdicts against the specification of feasible itineraries
-/

set_option autoImplicit false

namespace Jinete

variable {E : Env} {c : Core} {r : Nat}

theorem Chained.timetable_idx (hc : Chained c r) {k s : Nat} (hk : (c.route r).stops[k]? = some s) :
    (routeTimetable E c r)[k]? = some (tmAt E c s) ∧ (routeLoads E c r)[k]? = some (loadAt E c s) ∧
      (itinerary c r)[k]? = some (visitOf c s) := by
  obtain ⟨pre, suf, e, rfl⟩ := split_at hk
  refine ⟨?_, ?_, ?_⟩
  · rw [hc.tmAt_eq e]; exact hc.timetable_at e
  · rw [hc.loadAt_eq e]; exact loads_at_chain e
  · simp [itinerary, e]

theorem routeTimetable_length : (routeTimetable E c r).length = (c.route r).stops.length := by
  simp [routeTimetable, vehicleTimetable, itinerary]

theorem Chained.timetable_head (hc : Chained c r) {f : Nat} (hf : (c.route r).stops.head? = some f) :
    (routeTimetable E c r).head? = some (tmAt E c f) ∧ (itinerary c r).head? = some (visitOf c f) := by
  rw [List.head?_eq_getElem?] at hf ⊢
  rw [List.head?_eq_getElem?]
  exact ⟨(hc.timetable_idx hf).1, (hc.timetable_idx (E := E) hf).2.2⟩

theorem Chained.timetable_last (hc : Chained c r) {l : Nat} (hl : (c.route r).stops.getLast? = some l) :
    (routeTimetable E c r).getLast? = some (tmAt E c l) ∧ (itinerary c r).getLast? = some (visitOf c l) := by
  rw [List.getLast?_eq_getElem?] at hl ⊢
  rw [List.getLast?_eq_getElem?]
  rw [routeTimetable_length]
  refine ⟨(hc.timetable_idx hl).1, ?_⟩
  have : (itinerary c r).length = (c.route r).stops.length := by simp [itinerary]
  rw [this]
  exact (hc.timetable_idx (E := E) hl).2.2

theorem vehV_iff (hw : WellFormed c r) :
    vehV E c r = true ↔ VehicleOK E (E.vehicle (c.route r).vehicle) (itinerary c r) := by
  obtain ⟨f, l, hf, hl⟩ := hw.ends
  obtain ⟨t1, t2⟩ := hw.timetable_head (E := E) hf
  obtain ⟨t3, t4⟩ := hw.timetable_last (E := E) hl
  have t1' : (vehicleTimetable E (E.vehicle (c.route r).vehicle) (itinerary c r)).head? = some (tmAt E c f) := t1
  have t3' : (vehicleTimetable E (E.vehicle (c.route r).vehicle) (itinerary c r)).getLast? = some (tmAt E c l) := t3
  unfold vehV
  rw [hf, hl]
  simp only [Bool.and_eq_true, decide_eq_true_eq]
  constructor
  · rintro ⟨⟨⟨⟨h1, h2⟩, h3⟩, h4⟩, h5⟩
    refine ⟨?_, ?_, ?_, ?_, ?_⟩
    · rw [t2]; simp [visitOf, h1]
    · rw [t1']; intro x hx; cases hx; exact h2
    · rw [t4]; simp [visitOf, h3]
    · rw [t3']; intro x hx; cases hx; exact h4
    · rw [t1', t3']; intro x hx y hy; cases hx; cases hy; exact h5
  · intro hv
    have h1 := hv.startPos
    have h2 := hv.startTime
    have h3 := hv.endPos
    have h4 := hv.endTime
    have h5 := hv.duration
    rw [t2] at h1
    rw [t1'] at h2
    rw [t4] at h3
    rw [t3'] at h4
    rw [t1', t3'] at h5
    exact ⟨⟨⟨⟨by simpa [visitOf] using h1, h2 _ rfl⟩, by simpa [visitOf] using h3⟩, h4 _ rfl⟩, h5 _ rfl _ rfl⟩

/-- One served trip of a route: the planned trip, its stops and their places. -/
theorem WellFormed.served (hw : WellFormed c r) {i j su sd t : Nat} (hi : (c.route r).stops[i]? = some su)
    (hj : (c.route r).stops[j]? = some sd) (ht : t ∈ (visitOf c su).picks) (ht' : t ∈ (visitOf c sd).drops) :
    ∃ p, p ∈ (c.stop su).pickups ∧ p ∈ (c.stop sd).deliveries ∧ (c.pt p).trip = t ∧ (c.pt p).pickup = some su ∧
      (c.pt p).delivery = some sd ∧ p ∈ routePlannedTrips c r := by
  simp only [visitOf, List.mem_map] at ht ht'
  obtain ⟨p, hp, e1⟩ := ht
  obtain ⟨p', hp', e2⟩ := ht'
  have hsu := List.mem_of_getElem? hi
  have hsd := List.mem_of_getElem? hj
  have m1 : p ∈ (c.route r).stops.flatMap fun s => (c.stop s).pickups := List.mem_flatMap.2 ⟨su, hsu, hp⟩
  have m2 : p' ∈ (c.route r).stops.flatMap fun s => (c.stop s).pickups :=
    hw.deliveries_sub_pickups p' (List.mem_flatMap.2 ⟨sd, hsd, hp'⟩)
  have := hw.trip_inj m1 m2 (e1.trans e2.symm)
  subst this
  obtain ⟨a, b, e⟩ := List.append_of_mem hsu
  obtain ⟨a', b', e'⟩ := List.append_of_mem hsd
  exact ⟨p, hp, hp', e1, (hw.pick a su b e p hp).2.1, (hw.drop a' sd b' e' p hp').2.1, m1⟩

/-- Latest start of the visit at a stop: every trip served there is in time. -/
theorem leQ_stopLatest (s : Nat) (x : ℚ) :
    ((stopLatest E c s).addQ errorBound).leQ x = true ↔
      (∀ p ∈ (c.stop s).pickups, (((ptTrip E c p).originLatest E.metric).addQ errorBound).leQ x = true) ∧
      (∀ p ∈ (c.stop s).deliveries, ((ptTrip E c p).destinationLatest.addQ errorBound).leQ x = true) := by
  unfold stopLatest
  rw [Bound.leQ_addQ, leQ_minBound]
  simp only [List.mem_append, List.mem_map, Bound.leQ_addQ]
  constructor
  · intro h
    exact ⟨fun p hp => h _ (.inl ⟨p, hp, rfl⟩), fun p hp => h _ (.inr ⟨p, hp, rfl⟩)⟩
  · rintro ⟨h1, h2⟩ b (⟨p, hp, rfl⟩ | ⟨p, hp, rfl⟩)
    · exact h1 p hp
    · exact h2 p hp

theorem stopEarliest_le (s : Nat) : stopEarliest E c s ≤ (tmAt E c s).start := start_ge_earliest _ _ _

theorem le_stopEarliest_pick {s p : Nat} (hp : p ∈ (c.stop s).pickups) : (ptTrip E c p).originEarliest ≤ stopEarliest E c s :=
  le_maxD (List.mem_append_left _ (List.mem_map_of_mem hp))

theorem le_stopEarliest_drop {s p : Nat} (hp : p ∈ (c.stop s).deliveries) :
    (ptTrip E c p).destinationEarliest E.metric ≤ stopEarliest E c s :=
  le_maxD (List.mem_append_right _ (List.mem_map_of_mem hp))

theorem stopV_iff (s : Nat) : stopV E c s = true ↔
    ((stopLatest E c s).addQ errorBound).leQ (tmAt E c s).start = true ∧
    loadAt E c s ≤ (E.vehicle (c.stop s).vehicle).capacity + errorBound := by
  have h1 : stopEarliest E c s ≤ (tmAt E c s).start + errorBound := by
    have := stopEarliest_le (E := E) (c := c) s
    have : (0 : ℚ) ≤ errorBound := by norm_num [errorBound]
    linarith
  simp [stopV, h1]

/-- The computed verdict of one planned trip, without memoised verdicts. -/
def tripV (E : Env) (c : Core) (p : Nat) : Bool :=
  match (c.pt p).pickup, (c.pt p).delivery with
  | some u, some d => stopV E c u && stopV E c d && rideV E c p u d
  | _, _ => false

/-- The computed verdict of a route, without memoised verdicts. -/
def freshV (E : Env) (c : Core) (r : Nat) : Bool := vehV E c r && (routePlannedTrips c r).all (tripV E c)

/-- The trip constraints of an itinerary follow from the verdicts of the planned trips. -/
theorem trips_of_tripV (hw : WellFormed c r) (h2 : ∀ p ∈ routePlannedTrips c r, tripV E c p = true) :
    ∀ (i j : Nat) (v w : Visit) (x y : Tm) (q q' : ℚ) (t : Nat),
      (itinerary c r)[i]? = some v → (itinerary c r)[j]? = some w →
      (vehicleTimetable E (E.vehicle (c.route r).vehicle) (itinerary c r))[i]? = some x →
      (vehicleTimetable E (E.vehicle (c.route r).vehicle) (itinerary c r))[j]? = some y →
      (loads E 0 (itinerary c r))[i]? = some q → (loads E 0 (itinerary c r))[j]? = some q' →
      t ∈ v.picks → t ∈ w.drops → TripOK E (E.vehicle (c.route r).vehicle) t x y q q' := by
  have hveh : ∀ s ∈ (c.route r).stops, (c.stop s).vehicle = (c.route r).vehicle := hw.vehicle
  intro i j v w x y q q' t hv hw' hx hy hq hq' ht ht'
  have gi : ∃ su, (c.route r).stops[i]? = some su ∧ visitOf c su = v := by
    simpa [itinerary, List.getElem?_map, Option.map_eq_some_iff] using hv
  have gj : ∃ sd, (c.route r).stops[j]? = some sd ∧ visitOf c sd = w := by
    simpa [itinerary, List.getElem?_map, Option.map_eq_some_iff] using hw'
  obtain ⟨su, hi, rfl⟩ := gi
  obtain ⟨sd, hj, rfl⟩ := gj
  obtain ⟨p, hp1, hp2, rfl, hp4, hp5, hp6⟩ := hw.served hi hj ht ht'
  obtain ⟨a1, a2, _⟩ := hw.timetable_idx (E := E) hi
  obtain ⟨b1, b2, _⟩ := hw.timetable_idx (E := E) hj
  have ex : x = tmAt E c su := by
    have := hx.symm.trans a1; simpa using this
  have ey : y = tmAt E c sd := by
    have := hy.symm.trans b1; simpa using this
  have eq1 : q = loadAt E c su := by
    have := hq.symm.trans a2; simpa using this
  have eq2 : q' = loadAt E c sd := by
    have := hq'.symm.trans b2; simpa using this
  subst ex ey eq1 eq2
  have := h2 p hp6
  unfold tripV at this
  rw [hp4, hp5] at this
  simp only [Bool.and_eq_true, stopV_iff, leQ_stopLatest, rideV] at this
  obtain ⟨⟨⟨⟨u1, _⟩, u3⟩, ⟨_, d2⟩, d3⟩, hr⟩ := this
  have eb : (0 : ℚ) ≤ errorBound := by norm_num [errorBound]
  rw [hveh su (List.mem_of_getElem? hi)] at u3
  rw [hveh sd (List.mem_of_getElem? hj)] at d3
  refine ⟨?_, u1 p hp1, ?_, d2 p hp2, u3, d3, hr⟩
  · have := le_stopEarliest_pick (E := E) hp1
    have := stopEarliest_le (E := E) (c := c) su
    simp only [ptTrip] at *
    linarith
  · have := le_stopEarliest_drop (E := E) hp2
    have := stopEarliest_le (E := E) (c := c) sd
    simp only [ptTrip] at *
    linarith

theorem freshV_iff (hw : WellFormed c r) :
    freshV E c r = true ↔ FeasibleItinerary E (E.vehicle (c.route r).vehicle) (itinerary c r) := by
  have hveh : ∀ s ∈ (c.route r).stops, (c.stop s).vehicle = (c.route r).vehicle := hw.vehicle
  unfold freshV
  rw [Bool.and_eq_true, vehV_iff hw, List.all_eq_true]
  constructor
  · rintro ⟨h1, h2⟩
    exact ⟨h1, trips_of_tripV hw h2⟩
  · intro hf
    refine ⟨hf.vehicle, ?_⟩
    -- the trip constraints of any planned trip of the route
    have key : ∀ p u d, p ∈ routePlannedTrips c r → (c.pt p).pickup = some u → (c.pt p).delivery = some d →
        u ∈ (c.route r).stops ∧ d ∈ (c.route r).stops ∧
        TripOK E (E.vehicle (c.route r).vehicle) (c.pt p).trip (tmAt E c u) (tmAt E c d) (loadAt E c u) (loadAt E c d) := by
      intro p u d hp hu hd
      obtain ⟨u', d', pre, mid, suf, e, hu', hd', hpu, hpd⟩ := hw.stops_of hp
      rw [hu] at hu'; cases hu'
      rw [hd] at hd'; cases hd'
      have hus : u ∈ (c.route r).stops := by rw [e]; simp
      have hds : d ∈ (c.route r).stops := by rw [e]; simp
      obtain ⟨i, hi⟩ := List.getElem?_of_mem hus
      obtain ⟨j, hj⟩ := List.getElem?_of_mem hds
      obtain ⟨a1, a2, a3⟩ := hw.timetable_idx (E := E) hi
      obtain ⟨b1, b2, b3⟩ := hw.timetable_idx (E := E) hj
      exact ⟨hus, hds, hf.trips i j _ _ _ _ _ _ (c.pt p).trip a3 b3 a1 b1 a2 b2
        (List.mem_map_of_mem hpu) (List.mem_map_of_mem hpd)⟩
    have pickOf : ∀ s ∈ (c.route r).stops, ∀ q ∈ (c.stop s).pickups,
        (((ptTrip E c q).originLatest E.metric).addQ errorBound).leQ (tmAt E c s).start = true := by
      intro s hs q hq
      have hqr : q ∈ routePlannedTrips c r := List.mem_flatMap.2 ⟨s, hs, hq⟩
      obtain ⟨u, d, pre, mid, suf, e, hu, hd, _, _⟩ := hw.stops_of hqr
      obtain ⟨a, b, e'⟩ := List.append_of_mem hs
      have := (hw.pick a s b e' q hq).2.1
      rw [hu] at this; cases this
      exact (key q s d hqr hu hd).2.2.pickLatest
    have dropOf : ∀ s ∈ (c.route r).stops, ∀ q ∈ (c.stop s).deliveries,
        ((ptTrip E c q).destinationLatest.addQ errorBound).leQ (tmAt E c s).start = true := by
      intro s hs q hq
      have hqr : q ∈ routePlannedTrips c r := hw.deliveries_sub_pickups q (List.mem_flatMap.2 ⟨s, hs, hq⟩)
      obtain ⟨u, d, pre, mid, suf, e, hu, hd, _, _⟩ := hw.stops_of hqr
      obtain ⟨a, b, e'⟩ := List.append_of_mem hs
      have := (hw.drop a s b e' q hq).2.1
      rw [hd] at this; cases this
      exact (key q u s hqr hu hd).2.2.dropLatest
    intro p hp
    obtain ⟨u, d, pre, mid, suf, e, hu, hd, hpu, hpd⟩ := hw.stops_of hp
    obtain ⟨hus, hds, hok⟩ := key p u d hp hu hd
    unfold tripV
    rw [hu, hd]
    simp only [Bool.and_eq_true, stopV_iff, leQ_stopLatest, rideV]
    rw [hveh u hus, hveh d hds]
    exact ⟨⟨⟨⟨pickOf u hus, dropOf u hus⟩, hok.pickLoad⟩, ⟨pickOf d hds, dropOf d hds⟩, hok.dropLoad⟩, hok.ride⟩

/-- Without stale stop verdicts, the effective verdict of a route whose planned trips and itself have none
memoised is the fresh one. -/
theorem routeV_fresh {h : Heap} (hw : WellFormed h.core r) (hs : ∀ s ∈ (h.core.route r).stops, ∀ b, h.sfeas s = some b → b = stopV E h.core s)
    (hp : ∀ p ∈ routePlannedTrips h.core r, h.pfeas p = none) : routeV E h r = freshV E h.core r := by
  unfold routeV freshV
  congr 1
  rw [Bool.eq_iff_iff, List.all_eq_true, List.all_eq_true]
  refine forall_congr' fun p => forall_congr' fun hpr => ?_
  have : effP E h p = tripV E h.core p := by
    obtain ⟨u, d, pre, mid, suf, e, hu, hd, hpu, hpd⟩ := hw.stops_of hpr
    have hus : u ∈ (h.core.route r).stops := by rw [e]; simp
    have hds : d ∈ (h.core.route r).stops := by rw [e]; simp
    have es : ∀ s ∈ (h.core.route r).stops, effS E h s = stopV E h.core s := by
      intro s hss
      unfold effS
      cases hv : h.sfeas s with
      | none => rfl
      | some b => exact hs s hss b hv
    unfold effP ptV tripV
    rw [hp p hpr, hu, hd]
    simp only [Option.getD_none]
    rw [es u hus, es d hds]
  rw [this]

end Jinete
