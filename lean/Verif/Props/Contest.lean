import Verif.Proofs.Contest
import Verif.Proofs.Reach
import Verif.Props.Loader

/-!
# C85: the objective value and the score at the contest
-/

set_option autoImplicit false

namespace Jinete

variable {E : Env} {data : Rows} {f n : Nat} {b T : ℚ}

/-- The trips loaded from a file are the rides of the contest. -/
theorem loaded_rides (hd : HashCodeData data f n b T) (hl : LoadedHashCode E data) {k : Nat} (hk : k < n) : IsRide E b k (contestRide data k) := by
  obtain ⟨trips, s, s', e, h⟩ := hl.trips
  obtain ⟨trips', s'', e', hlen, _, ht, _⟩ := C51_one_trip_per_ride hd s
  rw [e] at e'
  cases e'
  obtain ⟨t, hk'⟩ : ∃ t, trips[k]? = some t := ⟨_, List.getElem?_eq_getElem (by omega)⟩
  obtain ⟨_, h1, h2, h3, row, x1, y1, x2, y2, e, l, hrow, ⟨rfl⟩, h4, h5, h6, h7, h8, h9, h10, h11⟩ := ht k t hk'
  have hc : contestRide data k = ⟨x1, y1, x2, y2, e, l⟩ := by
    unfold contestRide
    rw [hrow]
  rw [hc]
  have he := h k t hk'
  refine ⟨?_, ?_, ?_, ?_, ?_, ?_, ?_, ?_, ?_⟩ <;> rw [he] <;> assumption

theorem loaded_vehicles (hd : HashCodeData data f n b T) (hl : LoadedHashCode E data) {k : Nat} (hk : k < f) :
    (E.vehicle k).origin.position = [0, 0] ∧ (E.vehicle k).origin.earliest = 0 ∧ (E.vehicle k).capacity = 1 := by
  obtain ⟨vs, s, s', e, h⟩ := hl.vehicles
  obtain ⟨vs', s'', e', hlen, _, ht, _⟩ := C51_vehicles hd s
  rw [e] at e'
  cases e'
  obtain ⟨v, hk'⟩ : ∃ t, vs[k]? = some t := ⟨_, List.getElem?_eq_getElem (by omega)⟩
  obtain ⟨_, h1, h2, h3, h4, h5, h6⟩ := ht k v hk'
  rw [h k v hk']
  exact ⟨h1, h2, h5⟩

/-- Each ride is delivered by its latest finish, according to the schedule of its route. -/
def DeliveredInTime (E : Env) (data : Rows) (h : Heap) (rs : List Nat) : Prop :=
  ∀ r ∈ rs, ∀ z ∈ (itinerary h.core r).zip (routeTimetable E h.core r), ∀ t ∈ z.1.drops, z.2.start ≤ (contestRide data t).latest

/-- The routes serve rides of the file with vehicles of the file, as they should, within the routing constraints of
`LooselyFeasible`. -/
structure ServesRides (E : Env) (f n : Nat) (h : Heap) (rs : List Nat) : Prop where
  wf : ∀ r ∈ rs, WellFormed h.core r
  vehicles : ∀ r ∈ rs, (h.core.route r).vehicle < f
  rides : ∀ r ∈ rs, ∀ t ∈ tripsOf h.core r, t < n
  proper : ProperRoutes E h rs
  loosely : ServesLoosely E h rs

/-- Of a planning for the vehicles and rides of the file. -/
theorem PlanningFor.servesRides {fleet job : List Nat} {h : Heap} {rs : List Nat} (p : PlanningFor E fleet job h rs) (hf : ∀ v ∈ fleet, v < f)
    (hj : ∀ t ∈ job, t < n) (hp : ProperRoutes E h rs) (hs : ServesLoosely E h rs) : ServesRides E f n h rs where
  wf r hr := (p.sound r hr).1
  vehicles r hr := hf _ (p.vehicles.mem_iff.1 (List.mem_map.2 ⟨r, hr, rfl⟩))
  rides r hr t ht := hj t (p.job t (List.mem_flatMap.2 ⟨r, hr, ht⟩))
  proper := hp
  loosely := hs

/-- Meeting all constraints includes meeting the loose ones: nothing is served later as soon as possible. -/
theorem FeasibleItinerary.loosely {veh : Vehicle} {l : List Visit} (h : FeasibleItinerary E veh l) : LooselyFeasible E veh l where
  startPos := h.vehicle.startPos
  startTime := h.vehicle.startTime
  endPos := h.vehicle.endPos
  endTime := h.vehicle.endTime
  trips i j v w x y q q' t h1 h2 h3 h4 h5 h6 h7 h8 :=
    let k := h.trips i j v w x y q q' t h1 h2 h3 h4 h5 h6 h7 h8
    ⟨k.pickEarliest, k.dropEarliest, k.pickLoad, k.dropLoad, k.ride⟩
  closing i j v w x y t h1 h2 h3 h4 h7 h8 := by
    obtain ⟨x', k1, k2⟩ := timetable_asap (le_refl _) h3
    obtain ⟨y', k3, k4⟩ := timetable_asap (le_refl _) h4
    have len : ∀ (i : Nat) (v : Visit), l[i]? = some v → ∃ q, (loads E 0 l)[i]? = some q := by
      intro i v hv
      have hi : i < l.length := by
        by_contra hn
        rw [List.getElem?_eq_none (by omega)] at hv
        cases hv
      exact ⟨_, List.getElem?_eq_getElem (by rw [loads_length]; exact hi)⟩
    obtain ⟨q, hq⟩ := len i v h1
    obtain ⟨q', hq'⟩ := len j w h2
    have k := h.trips i j v w x' y' q q' t h1 h2 k1 k3 hq hq' h7 h8
    exact ⟨Bound.leQ_mono k2 k.pickLatest, Bound.leQ_mono k4 k.dropLatest⟩

theorem ServesFeasibly.loosely {h : Heap} {rs : List Nat} (hs : ServesFeasibly E h rs) : ServesLoosely E h rs :=
  fun r hr => (hs r hr).imp id FeasibleItinerary.loosely

/-- The shape of a route that serves rides: first stop, rides one by one, last stop. -/
theorem ServesRides.one_by_one (hd : HashCodeData data f n b T) (hl : LoadedHashCode E data) {h : Heap} {rs : List Nat}
    (hs : ServesRides E f n h rs) {r : Nat} (hr : r ∈ rs) :
    ∃ v0 mid vl, itinerary h.core r = v0 :: (mid ++ [vl]) ∧ v0.pos = [0, 0] ∧ v0.picks = [] ∧ v0.drops = [] ∧ vl.picks = [] ∧
      OneByOne E mid (tripsOf h.core r) := by
  obtain ⟨md, he, hmid⟩ := hs.proper r hr
  have hw := hs.wf r hr
  obtain ⟨v0, rest, hv, hv0, hrest⟩ := List.map_eq_cons_iff.1 he
  obtain ⟨mid, post, rfl, hm, hpo⟩ := List.map_eq_append_iff.1 hrest
  obtain ⟨vl, post', rfl, hvl, hp'⟩ := List.map_eq_cons_iff.1 hpo
  rw [List.map_eq_nil_iff] at hp'
  subst hp'
  obtain ⟨a1, a2, a3⟩ := Visit.duty_eq hv0
  obtain ⟨b1, b2, b3⟩ := Visit.duty_eq hvl
  simp only at a1 a2 a3 b1 b2 b3
  refine ⟨v0, mid, vl, hv, by rw [a1]; exact (loaded_vehicles hd hl (hs.vehicles r hr)).1, a2, a3, b2, ?_⟩
  have htr : tripsOf h.core r = mid.flatMap Visit.picks := by
    unfold tripsOf
    rw [hv]
    simp [a2, b2]
  rw [htr]
  have hcap : ∀ t ∈ (itinerary h.core r).flatMap Visit.picks, (E.trip t).capacity = 1 := fun t ht =>
    (loaded_rides hd hl (hs.rides r hr t ht)).capacity
  refine (oneByOne_of (post := [vl]) hw.itinOK hcap ?_ (by simp [b3]) mid [v0] (by rw [hv]; simp) ?_).1 (by simp [a2, a3])
  · intro a v bb e hne
    obtain ⟨t, ht⟩ := List.exists_mem_of_ne_nil _ hne
    rcases hs.loosely r hr with h0 | h0
    · have : t ∈ tripsOf h.core r := List.mem_flatMap.2 ⟨v, by rw [e]; simp, ht⟩
      rw [h0] at this
      cases this
    · have hdrop := hw.itinOK.pickBefore a v bb e t ht
      obtain ⟨w, hwm, hwt⟩ := List.mem_flatMap.1 hdrop
      obtain ⟨c1, c2, rfl⟩ := List.append_of_mem hwm
      have e2 : itinerary h.core r = (a ++ v :: c1) ++ w :: c2 := by rw [e]; simp
      have h1 : (itinerary h.core r)[a.length]? = some v := by rw [e]; simp
      have h2 : (itinerary h.core r)[(a ++ v :: c1).length]? = some w := by
        rw [e2, List.getElem?_append_right le_rfl]
        simp
      have hx := timetable_at (E := E) (E.vehicle (h.core.route r).vehicle).origin.earliest (E.vehicle (h.core.route r).vehicle).origin.position a
        (c1 ++ w :: c2) v
      have hy := timetable_at (E := E) (E.vehicle (h.core.route r).vehicle).origin.earliest (E.vehicle (h.core.route r).vehicle).origin.position
        (a ++ v :: c1) c2 w
      have hq := loads_at (E := E) 0 a (c1 ++ w :: c2) v
      have hq' := loads_at (E := E) 0 (a ++ v :: c1) c2 w
      rw [← e] at hx hq
      rw [← e2] at hy hq'
      have k := (h0.trips _ _ v w _ _ _ _ t h1 h2 hx hy hq hq' ht hwt).pickLoad
      have hc : (planOf E h.core r).1.capacity = 1 := (loaded_vehicles hd hl (hs.vehicles r hr)).2.2
      rw [hc] at k
      refine lt_of_le_of_lt k ?_
      norm_num [errorBound]
  · intro v hvm
    obtain ⟨t, ht⟩ := hmid v.duty (by rw [← hm]; exact List.mem_map_of_mem hvm)
    exact ⟨t, ht⟩

/-- No start times are requested, except perhaps for the first visit, where it does not delay the second one beyond its
opening. -/
def Undelayed (E : Env) (veh : Vehicle) (l : List Visit) : Prop :=
  (∀ v ∈ l.drop 1, v.request = none) ∧
  ((∀ v ∈ l.head?, v.request = none) ∨ ∀ v ∈ l[1]?, ∀ x ∈ (vehicleTimetable E veh l)[1]?, x.arr ≤ v.earliest E)

/-- Value of one route, in terms of its rides. -/
theorem ServesRides.route_value (hd : HashCodeData data f n b T) (hl : LoadedHashCode E data) {h : Heap} {rs : List Nat}
    (hs : ServesRides E f n h rs) (hin : DeliveredInTime E data h rs) {r : Nat} (hr : r ∈ rs) :
    ∃ q, routeValue E (planOf E h.core r).1 (planOf E h.core r).2 .hashCode = [q] ∧
      (0 ≤ b → q ≤ contestEarned b 0 0 0 ((tripsOf h.core r).map (contestRide data))) ∧
      (Undelayed E (planOf E h.core r).1 (planOf E h.core r).2 → q = contestEarned b 0 0 0 ((tripsOf h.core r).map (contestRide data))) := by
  obtain ⟨v0, mid, vl, hv, p0, k0, d0, kl, ho⟩ := hs.one_by_one hd hl hr
  obtain ⟨o1, o2, _⟩ := loaded_vehicles hd hl (hs.vehicles r hr)
  have hcap : ∀ t ∈ (itinerary h.core r).flatMap Visit.picks, (E.trip t).capacity = 1 := fun t ht =>
    (loaded_rides hd hl (hs.rides r hr t ht)).capacity
  have hR : ∀ k ∈ tripsOf h.core r, IsRide E b k (contestRide data k) := fun k hk => loaded_rides hd hl (hs.rides r hr k hk)
  have hz := hin r hr
  unfold routeTimetable vehicleTimetable at hz
  rw [o1, o2] at hz
  refine ⟨_, routeValue_reported hcap, ?_⟩
  show (0 ≤ b → reported E (E.vehicle (h.core.route r).vehicle).origin.earliest (E.vehicle (h.core.route r).vehicle).origin.position
    (itinerary h.core r) ≤ _) ∧ (_ → reported E (E.vehicle (h.core.route r).vehicle).origin.earliest
      (E.vehicle (h.core.route r).vehicle).origin.position (itinerary h.core r) = _)
  rw [o1, o2]
  have hserve : (serve E 0 [0, 0] v0).dep = max (max (v0.request.getD 0) 0) 0 := by
    simp [serve, hl.metric, p0, manhattan, Visit.earliest, Visit.loadTime, k0, d0, maxD]
  rw [hv] at hz ⊢
  simp only [reported, k0, List.map_nil, List.sum_nil, zero_add, p0]
  simp only [timetable, List.zip_cons_cons, List.mem_cons, forall_eq_or_imp, p0] at hz
  have hz' : ∀ z ∈ mid.zip (timetable E (serve E 0 [0, 0] v0).dep [0, 0] mid), ∀ t ∈ z.1.drops, z.2.start ≤ (contestRide data t).latest := by
    intro z hm
    refine hz.2 z ?_
    rw [timetable_append, List.zip_append (by simp)]
    exact List.mem_append_left _ hm
  have h00 : 0 ≤ (serve E 0 [0, 0] v0).dep := by rw [hserve]; exact le_max_right _ _
  refine ⟨fun hb => ho.contest hb hl.metric hR (by simp [kl]) _ _ _ _ h00 hz', fun hreq => ?_⟩
  obtain ⟨hreq, hfirst⟩ := hreq
  simp only [planOf, vehicleTimetable, o1, o2, hv] at hreq hfirst
  refine ho.contest_eq hl.metric hR (fun v hv => hreq v (by simp [hv])) (by simp [kl]) _ _ _ _ le_rfl h00 ?_ hz'
  rcases hfirst with h0 | h0
  · left
    rw [hserve, h0 v0 rfl]
    simp
  · right
    intro v hvm
    cases mid with
    | nil => cases hvm
    | cons w mid =>
      obtain rfl : w = v := by simpa using hvm
      refine le_trans (le_of_eq ?_) (h0 w (by simp) (serve E (serve E 0 [0, 0] v0).dep [0, 0] w) (by simp [timetable, p0]))
      rfl

/-! ## C85 -/

/-- The full claim C85: for routes that serve rides of the file within the routing constraints, the HashCode objective is the
score of their rides at the contest. -/
def ReportsContestScore (E : Env) (data : Rows) (f n : Nat) (b : ℚ) : Prop :=
  ∀ (h : Heap) (rs : List Nat), ServesRides E f n h rs → ServesFeasibly E h rs →
    planningValue E .hashCode (rs.map (planOf E h.core)) = [contestScore data b (rs.map (tripsOf h.core))]

theorem planningValue_hashCode {h : Heap} {rs : List Nat} {g : Nat → ℚ}
    (hg : ∀ r ∈ rs, routeValue E (planOf E h.core r).1 (planOf E h.core r).2 .hashCode = [g r]) :
    planningValue E .hashCode (rs.map (planOf E h.core)) = [(rs.map g).sum] := by
  simp only [planningValue, columnSums, Objective.dim, List.range_one, List.map_cons, List.map_nil, List.map_map]
  congr 2
  apply List.map_congr_left
  intro r hr
  simp only [Function.comp]
  rw [hg r hr]
  rfl

/-- **C85, what holds.** If the routes deliver every ride by its latest finish, the contest gives at least the objective value;
and exactly the objective value if no start times were requested, except perhaps at the depot, where they do not delay the
first ride. Missing: rides delivered late, which the objective counts and the contest does not, and routes that leave the
depot too late, for which the contest may give more. -/
theorem C85_contest_score_partial (hd : HashCodeData data f n b T) (hl : LoadedHashCode E data) {h : Heap} {rs : List Nat}
    (hs : ServesRides E f n h rs) (hin : DeliveredInTime E data h rs) :
    ∃ q, planningValue E .hashCode (rs.map (planOf E h.core)) = [q] ∧
      (0 ≤ b → q ≤ contestScore data b (rs.map (tripsOf h.core))) ∧
      ((∀ r ∈ rs, Undelayed E (planOf E h.core r).1 (planOf E h.core r).2) → q = contestScore data b (rs.map (tripsOf h.core))) := by
  have hv := fun r (hr : r ∈ rs) => hs.route_value hd hl hin hr
  classical
  let g : Nat → ℚ := fun r => (routeValue E (planOf E h.core r).1 (planOf E h.core r).2 .hashCode).headD 0
  have hg : ∀ r ∈ rs, routeValue E (planOf E h.core r).1 (planOf E h.core r).2 .hashCode = [g r] := by
    intro r hr
    obtain ⟨q, hq, _⟩ := hv r hr
    simp only [g, hq, List.headD_cons]
  refine ⟨_, planningValue_hashCode hg, fun hb => ?_, fun hreq => ?_⟩
  · unfold contestScore
    rw [List.map_map]
    refine List.sum_le_sum fun r hr => ?_
    obtain ⟨q, hq, h1, _⟩ := hv r hr
    simp only [g, hq, List.headD_cons]
    exact h1 hb
  · unfold contestScore
    rw [List.map_map]
    congr 1
    refine List.map_congr_left fun r hr => ?_
    obtain ⟨q, hq, _, h1⟩ := hv r hr
    simp only [g, hq, List.headD_cons]
    exact h1 (hreq r hr)

theorem demoHashCodeEnv_ok : EnvOK demoHashCodeEnv where
  metric := manhattan_nonneg
  originDuration t := le_rfl
  destinationDuration t := le_rfl
  capacity t := by simp [demoHashCodeEnv, hashcodeTripOf]

/-- One route that can be checked by evaluation. -/
theorem serves_of_checks {h : Heap} {r : Nat} {mid : List Duty} (hE : EnvOK E) (hw : WellFormed h.core r) (ha : CachesAgree E h r) (hn : NoVerdicts h r)
    (hf : (routeFeasible E r h).1 = .ok true) (hv : (h.core.route r).vehicle < f) (ht : ∀ t ∈ tripsOf h.core r, t < n)
    (hd : duties h.core r = ⟨(E.vehicle (h.core.route r).vehicle).origin.position, [], []⟩ ::
      (mid ++ [⟨(E.vehicle (h.core.route r).vehicle).destination.position, [], []⟩]))
    (hm : ∀ d ∈ mid, ∃ t, d = pickDuty E t ∨ d = dropDuty E t) : ServesRides E f n h [r] ∧ ServesFeasibly E h [r] := by
  have hs : ServesFeasibly E h [r] := by
    intro q hq
    rw [List.mem_singleton.1 hq]
    obtain ⟨bb, h2, e1, e2, _⟩ := C18_feasible_iff_constraints hE h r hw ha hn
    rw [e1] at hf
    exact .inr (e2.1 (Except.ok.inj hf))
  refine ⟨⟨by simpa using hw, by simpa using hv, by simpa using ht, ?_, hs.loosely⟩, hs⟩
  intro q hq
  rw [List.mem_singleton.1 hq]
  exact ⟨mid, hd, hm⟩

theorem demoLate_serves : ServesRides demoHashCodeEnv 2 2 demoLate [1] ∧ ServesFeasibly demoHashCodeEnv demoLate [1] :=
  serves_of_checks (mid := [pickDuty demoHashCodeEnv 0, dropDuty demoHashCodeEnv 0]) demoHashCodeEnv_ok (wfB_sound (by decide +kernel))
    (agreeB_sound (by decide +kernel)) ⟨rfl, fun _ _ => rfl, fun _ _ _ _ => rfl⟩ (by decide +kernel) (by decide +kernel) (by decide +kernel)
    (by decide +kernel) (by
      intro d hd
      simp only [List.mem_cons, List.not_mem_nil, or_false] at hd
      rcases hd with rfl | rfl
      exacts [⟨0, .inl rfl⟩, ⟨0, .inr rfl⟩])

/-- C85 is false: a ride delivered late counts for the objective (5 points), though its route evaluates to feasible; at the contest
it earns nothing. -/
theorem C85_late_ride_counted : ¬ ReportsContestScore demoHashCodeEnv demoHashCode 2 2 2 := by
  intro hp
  have := hp demoLate [1] demoLate_serves.1 demoLate_serves.2
  revert this
  decide +kernel

/-- One vehicle and two rides, bonus 1. -/
def bonusRows : Rows := [[3, 4, 1, 2, 1, 100], [1, 0, 2, 0, 1, 100], [5, 0, 6, 0, 10, 100]]

theorem bonusRows_shape : HashCodeData bonusRows 1 2 1 100 where
  header := ⟨3, 4, 2, [], by simp [bonusRows]⟩
  length := rfl
  rides := by
    intro k hk
    interval_cases k
    · exact ⟨_, _, _, _, _, _, _, rfl, ⟨rfl⟩⟩
    · exact ⟨_, _, _, _, _, _, _, rfl, ⟨rfl⟩⟩

/-- The environment loaded from `bonusRows`. -/
def bonusEnv : Env where
  metric := manhattan
  trip k := (hashcodeTripOf bonusRows 1 k).trip
  vehicle _ := { origin := { position := [0, 0], latest := .fin 100 }, capacity := 1 }

theorem bonusEnv_loaded : LoadedHashCode bonusEnv bonusRows where
  metric := rfl
  trips := by
    obtain ⟨s', e, _⟩ := hashcodeJob_run bonusRows_shape (SurfaceState.new (D := ℚ) [])
    refine ⟨_, _, s', e, fun k t ht => ?_⟩
    rw [(range_map_getElem? ht).2]
    rfl
  vehicles := by
    obtain ⟨s', e, _⟩ := hashcodeFleet_run bonusRows_shape (SurfaceState.new (D := ℚ) [])
    refine ⟨_, _, s', e, fun k v hv => ?_⟩
    rw [(range_map_getElem? hv).2]
    rfl

theorem bonusEnv_ok : EnvOK bonusEnv where
  metric := manhattan_nonneg
  originDuration t := le_rfl
  destinationDuration t := le_rfl
  capacity t := by simp [bonusEnv, hashcodeTripOf]

/-- Route 1: ride 1 inserted into the empty route; the depot is left at 5 to be on time at 10. -/
def bonusOne : Heap :=
  let h := ((newRoute bonusEnv 0 >>= fun r => compute bonusEnv true r [1] 0 1) Heap.empty).2
  { h with sfeas := fun _ => none, pfeas := fun _ => none, rfeas := fun _ => none }
/-- Route 2: then ride 0 inserted before it; the depot is still left at 5. -/
def bonusTwo : Heap :=
  let h := (compute bonusEnv true 1 [0] 0 1 bonusOne).2
  { h with sfeas := fun _ => none, pfeas := fun _ => none, rfeas := fun _ => none }

theorem bonusOne_serves : ServesRides bonusEnv 1 2 bonusOne [1] ∧ ServesFeasibly bonusEnv bonusOne [1] :=
  serves_of_checks (mid := [pickDuty bonusEnv 1, dropDuty bonusEnv 1]) bonusEnv_ok (wfB_sound (by decide +kernel))
    (agreeB_sound (by decide +kernel)) ⟨rfl, fun _ _ => rfl, fun _ _ _ _ => rfl⟩ (by decide +kernel) (by decide +kernel) (by decide +kernel)
    (by decide +kernel) (by
      intro d hd
      simp only [List.mem_cons, List.not_mem_nil, or_false] at hd
      rcases hd with rfl | rfl
      exacts [⟨1, .inl rfl⟩, ⟨1, .inr rfl⟩])

theorem bonusTwo_serves : ServesRides bonusEnv 1 2 bonusTwo [2] ∧ ServesFeasibly bonusEnv bonusTwo [2] :=
  serves_of_checks (mid := [pickDuty bonusEnv 0, dropDuty bonusEnv 0, pickDuty bonusEnv 1, dropDuty bonusEnv 1]) bonusEnv_ok
    (wfB_sound (by decide +kernel)) (agreeB_sound (by decide +kernel)) ⟨rfl, fun _ _ => rfl, fun _ _ _ _ => rfl⟩ (by decide +kernel)
    (by decide +kernel) (by decide +kernel) (by decide +kernel) (by
      intro d hd
      simp only [List.mem_cons, List.not_mem_nil, or_false] at hd
      rcases hd with rfl | rfl | rfl | rfl
      exacts [⟨0, .inl rfl⟩, ⟨0, .inr rfl⟩, ⟨1, .inl rfl⟩, ⟨1, .inr rfl⟩])

/-- C85 is false also the other way: a vehicle that leaves the depot late, because of a start time left over from an earlier
insertion, misses a bonus (3 points) that the contest gives for the same rides in the same order (4 points). -/
theorem C85_bonus_missed : ¬ ReportsContestScore bonusEnv bonusRows 1 2 1 := by
  intro hp
  have := hp bonusTwo [2] bonusTwo_serves.1 bonusTwo_serves.2
  revert this
  decide +kernel

theorem bonusTwo_inTime : DeliveredInTime bonusEnv bonusRows bonusTwo [2] := by
  unfold DeliveredInTime
  decide +kernel

/-- The hypotheses of `C85_contest_score_partial` hold for this route, with a strict inequality. -/
example : planningValue bonusEnv .hashCode ([2].map (planOf bonusEnv bonusTwo.core)) = [3] ∧
    contestScore bonusRows 1 ([2].map (tripsOf bonusTwo.core)) = 4 ∧
    ∃ q, planningValue bonusEnv .hashCode ([2].map (planOf bonusEnv bonusTwo.core)) = [q] ∧
      (0 ≤ (1 : ℚ) → q ≤ contestScore bonusRows 1 ([2].map (tripsOf bonusTwo.core))) :=
  ⟨by decide +kernel, by decide +kernel, by
    obtain ⟨q, h1, h2, _⟩ := C85_contest_score_partial bonusRows_shape bonusEnv_loaded bonusTwo_serves.1 bonusTwo_inTime
    exact ⟨q, h1, h2⟩⟩

/-- For the first route, which leaves the depot just in time, the objective is the score. -/
example : Undelayed bonusEnv (planOf bonusEnv bonusOne.core 1).1 (planOf bonusEnv bonusOne.core 1).2 ∧
    ((itinerary bonusOne.core 1).head?.map Visit.request = some (some 5)) ∧
    planningValue bonusEnv .hashCode ([1].map (planOf bonusEnv bonusOne.core)) = [contestScore bonusRows 1 ([1].map (tripsOf bonusOne.core))] := by
  have hu : Undelayed bonusEnv (planOf bonusEnv bonusOne.core 1).1 (planOf bonusEnv bonusOne.core 1).2 := by
    unfold Undelayed
    decide +kernel
  refine ⟨hu, by decide +kernel, ?_⟩
  obtain ⟨q, h1, _, h2⟩ := C85_contest_score_partial bonusRows_shape bonusEnv_loaded bonusOne_serves.1 (by unfold DeliveredInTime; decide +kernel)
  rw [h1, h2 (by simpa using hu)]

end Jinete
