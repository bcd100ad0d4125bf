import Verif.Proofs.Feasible
import Verif.Proofs.Choose

/-!
# What criteria and objectives compute
-/

set_option autoImplicit false

namespace Jinete

variable {E : Env} {c : Core} {r : Nat}

theorem Evals.mono {L L' : List Nat} {α : Type} {m : M α} {f : Heap → α} (hm : Evals E c L m f) (hL : ∀ s ∈ L, s ∈ L') :
    Evals E c L' m f := fun h hc hco => hm h hc fun s hs => hco s (hL s hs)

/-- The visits and times of a route, stop by stop. -/
theorem Chained.zip_eq (hc : Chained c r) :
    (itinerary c r).zip (vehicleTimetable E (E.vehicle (c.route r).vehicle) (itinerary c r)) =
      (c.route r).stops.map fun s => (visitOf c s, tmAt E c s) := by
  have ht : vehicleTimetable E (E.vehicle (c.route r).vehicle) (itinerary c r) = (c.route r).stops.map (tmAt E c) := by
    apply List.ext_getElem?
    intro k
    cases hk : (c.route r).stops[k]? with
    | some s => rw [List.getElem?_map, hk]; exact (hc.timetable_idx hk).1
    | none =>
      rw [List.getElem?_map, hk]
      have h1 : (c.route r).stops.length ≤ k := List.getElem?_eq_none_iff.1 hk
      exact List.getElem?_eq_none_iff.2 (by rw [show (vehicleTimetable E _ _).length = _ from routeTimetable_length (E := E) (c := c) (r := r)]; exact h1)
  rw [ht]
  unfold itinerary
  rw [List.zip_map']

/-- Stop where a planned trip is picked up. -/
def pickStop (c : Core) (p : Nat) : Nat := (c.pt p).pickup.getD 0
/-- Stop where a planned trip is dropped. -/
def dropStop (c : Core) (p : Nat) : Nat := (c.pt p).delivery.getD 0

/-- The ride of a planned trip. -/
def rideOf (E : Env) (c : Core) (p : Nat) : Ride :=
  ⟨(c.pt p).trip, (tmAt E c (pickStop c p)).dep, (tmAt E c (dropStop c p)).start⟩

theorem WellFormed.dropStart_eq (hw : WellFormed c r) {p : Nat} (hp : p ∈ routePlannedTrips c r) :
    dropStart ((c.route r).stops.map fun s => (visitOf c s, tmAt E c s)) (c.pt p).trip = (tmAt E c (dropStop c p)).start := by
  obtain ⟨u, d, pre, mid, suf, e, hu, hd, hpu, hpd⟩ := hw.stops_of hp
  have hdm : d ∈ (c.route r).stops := by rw [e]; simp
  unfold dropStart
  cases hf : ((c.route r).stops.map fun s => (visitOf c s, tmAt E c s)).find? fun x => decide ((c.pt p).trip ∈ x.1.drops) with
  | none =>
    exfalso
    have := List.find?_eq_none.1 hf (visitOf c d, tmAt E c d) (List.mem_map_of_mem hdm)
    exact this (decide_eq_true (List.mem_map_of_mem (f := fun p => (c.pt p).trip) hpd))
  | some x =>
    have h1 := List.find?_some hf
    obtain ⟨s, hs, rfl⟩ := List.mem_map.1 (List.mem_of_find?_eq_some hf)
    simp only [decide_eq_true_eq] at h1
    obtain ⟨i, hi⟩ := List.getElem?_of_mem (show u ∈ (c.route r).stops by rw [e]; simp)
    obtain ⟨j, hj⟩ := List.getElem?_of_mem hs
    obtain ⟨p', h2, h3, h4, h5, h6, h7⟩ := hw.served hi hj (t := (c.pt p).trip)
      (by simp only [visitOf]; exact List.mem_map_of_mem hpu) h1
    have := hw.trip_inj h7 hp h4
    subst this
    rw [hd] at h6
    cases h6
    simp [dropStop, hd]

/-- The rides of a route are those of its planned trips. -/
theorem WellFormed.rides_eq (hw : WellFormed c r) :
    rides E (E.vehicle (c.route r).vehicle) (itinerary c r) = (routePlannedTrips c r).map (rideOf E c) := by
  unfold rides
  rw [hw.zip_eq]
  unfold ridesOf routePlannedTrips
  rw [List.flatMap_map, List.map_flatMap]
  apply List.flatMap_congr
  intro s hs
  simp only [visitOf, List.map_map]
  apply List.map_congr_left
  intro p hp
  obtain ⟨pre, suf, e⟩ := List.append_of_mem hs
  have hpk := (hw.pick pre s suf e p hp).2.1
  have := hw.dropStart_eq (E := E) (p := p) (List.mem_flatMap.2 ⟨s, hs, hp⟩)
  simp only [Function.comp, rideOf, pickStop, hpk, Option.getD_some]
  simp only [visitOf] at this
  rw [this]

theorem picks_eq : (itinerary c r).flatMap Visit.picks = routeTrips c r := by
  unfold itinerary routeTrips routePlannedTrips
  rw [List.flatMap_map, List.map_flatMap]
  rfl

theorem WellFormed.pickupTime_reads (hw : WellFormed c r) {p : Nat} (hp : p ∈ routePlannedTrips c r) :
    Reads E c (c.route r).stops (pickupTime E p) (rideOf E c p).pick := by
  obtain ⟨u, d, pre, mid, suf, e, hu, hd, _, _⟩ := hw.stops_of hp
  have := (ptPickup_reads (E := E) (L := (c.route r).stops) hu).bind (hw.departure_at (E := E) (s := u) (by rw [e]; simp))
  simp only [rideOf, pickStop, hu, Option.getD_some]
  exact this

theorem WellFormed.ptDuration_ride (hw : WellFormed c r) {p : Nat} (hp : p ∈ routePlannedTrips c r) :
    Reads E c (c.route r).stops (ptDuration E p) ((rideOf E c p).drop - (rideOf E c p).pick) := by
  obtain ⟨u, d, pre, mid, suf, e, hu, hd, _, _⟩ := hw.stops_of hp
  have := ptDuration_reads (E := E) hw.toChained hu hd (by rw [e]; simp) (by rw [e]; simp)
  simpa [rideOf, pickStop, dropStop, hu, hd] using this

theorem WellFormed.hashCodeTripScore_reads (hw : WellFormed c r) {p : Nat} (hp : p ∈ routePlannedTrips c r) :
    Reads E c (c.route r).stops (hashCodeTripScore E p) ((rideOf E c p).earned E) :=
  Reads.read fun h hc => by
    rw [hc]
    exact (hw.pickupTime_reads hp).bind (Reads.pure _)

/-- Each criterion computes its value from the itinerary. -/
theorem WellFormed.criterion_reads (hw : WellFormed c r) (k : Criterion) :
    Reads E c (c.route r).stops (k.value E r) (criterionValue E (E.vehicle (c.route r).vehicle) (itinerary c r) k) := by
  obtain ⟨f, l, hf, hl⟩ := hw.ends
  have t1 : (vehicleTimetable E (E.vehicle (c.route r).vehicle) (itinerary c r)).head? = some (tmAt E c f) :=
    (hw.timetable_head (E := E) hf).1
  have t2 : (vehicleTimetable E (E.vehicle (c.route r).vehicle) (itinerary c r)).getLast? = some (tmAt E c l) :=
    (hw.timetable_last (E := E) hl).1
  have hdur := routeDuration_reads (E := E) hw.toChained hf hl
  cases k with
  | earliestLastDeparture =>
    simp only [criterionValue, t2, Option.elim_some]
    exact (lastStop_reads hl).bind (hw.departure_at (List.mem_of_getLast? hl))
  | shortestTime =>
    simp only [criterionValue, tourDuration, t1, t2, Option.elim_some]
    exact hdur
  | longestTime =>
    simp only [criterionValue, tourDuration, t1, t2, Option.elim_some]
    exact hdur
  | longestUtilTime =>
    refine Reads.read fun h hc => ?_
    rw [hc, criterionValue, picks_eq]
    exact Reads.pure _
  | shortestAverageDuration =>
    refine Reads.read fun h hc => ?_
    rw [hc, criterionValue, hw.rides_eq]
    by_cases hn : routePlannedTrips c r = []
    · simp only [hn, List.isEmpty_nil, if_true, List.map_nil]; exact Reads.pure _
    · rw [if_neg (by simpa using hn), if_neg (by simpa using hn)]
      have := (Reads.mapEach (E := E) fun p hp => hw.ptDuration_ride (E := E) (p := p) hp).bind (f := fun l => (pure (mean l) : M ℚ)) (Reads.pure _)
      simpa [mean, List.map_map, Function.comp_def] using this
  | hashCode =>
    refine Reads.read fun h hc => ?_
    rw [hc, criterionValue, hw.rides_eq]
    have := (Reads.mapEach (E := E) fun p hp => hw.hashCodeTripScore_reads (E := E) (p := p) hp).bind (f := fun l => (pure l.sum : M ℚ)) (Reads.pure _)
    simpa [List.map_map, Function.comp_def] using this

/-- The score of a route given its verdict. -/
def scoreOf (E : Env) (c : Core) (k : Criterion) (r : Nat) (b : Bool) : Score :=
  if b then .fin (criterionValue E (E.vehicle (c.route r).vehicle) (itinerary c r) k) else k.worst

theorem stable_effR (r : Nat) : Stable E fun h => effR E h r := fun _ _ g => g.effR r

theorem WellFormed.scoring_evals (hE : EnvOK E) (hw : WellFormed c r) (k : Criterion) :
    Evals E c (c.route r).stops (k.scoring E r) fun h => scoreOf E c k r (effR E h r) := by
  refine Evals.bind (g := fun b _ => scoreOf E c k r b) (routeFeasible_evals hE hw) ?_ (fun _ => stable_const _)
  intro b
  cases b with
  | false => simpa [scoreOf] using Evals.pure (E := E) (c := c) (L := (c.route r).stops) k.worst
  | true =>
    simp only [not_true_eq_false, if_false, scoreOf, if_true]
    exact (Reads.bind (f := fun v => (pure (Score.fin v) : M Score)) (hw.criterion_reads (E := E) k) (Reads.pure _)).evals

/-! ## Evaluating keys of lists -/

/-- All routes of a list can be measured: the stops whose memoised times must agree. -/
def allStops (c : Core) (l : List Nat) : List Nat := l.flatMap fun r => (c.route r).stops

theorem Sound.coh {h : Heap} {l : List Nat} (hs : ∀ r ∈ l, Sound E h r) : ∀ s ∈ allStops h.core l, CohAt E h s := by
  intro s hs'
  obtain ⟨r, hr, hsr⟩ := List.mem_flatMap.1 hs'
  exact (cachesAgree_iff (hs r hr).1.toChained).1 (hs r hr).2 s hsr

theorem keyed_evals {α K : Type} {L : List Nat} {key : α → M K} {f : α → Heap → K} {l : List α}
    (hk : ∀ x ∈ l, Evals E c L (key x) (f x)) (hs : ∀ x ∈ l, Stable E (f x)) :
    Evals E c L (keyed key l) fun h => l.map fun x => (x, f x h) := by
  refine Evals.mapEach (g := fun x h => (x, f x h)) (fun x hx => ?_) (fun x hx h h' g => by simp only [hs x hx h h' g])
  exact Evals.bind (g := fun a _ => (x, a)) (hk x hx) (fun a => Evals.pure _) (fun _ => stable_const _)

/-- Scoring a list of routes. -/
theorem scoring_keyed (hE : EnvOK E) (k : Criterion) {h : Heap} {l : List Nat} (hs : ∀ r ∈ l, Sound E h r) :
    ∃ h', keyed (k.scoring E) l h = (.ok (l.map fun r => (r, scoreOf E h.core k r (effR E h r))), h') ∧ GrowsV E h h' := by
  have := keyed_evals (E := E) (c := h.core) (L := allStops h.core l) (key := k.scoring E) (l := l)
    (f := fun r h' => scoreOf E h.core k r (effR E h' r))
    (fun r hr => ((hs r hr).1.scoring_evals hE k).mono fun s hs' => List.mem_flatMap.2 ⟨r, hr, hs'⟩)
    (fun r _ h1 h2 g => by simp only [g.effR])
  exact this h rfl (Sound.coh hs)

/-! ## Objectives -/

theorem sumTuples_eq (dim : Nat) {l : List (List ℚ)} (hl : ∀ v ∈ l, v.length = dim) : sumTuples dim l = columnSums dim l := by
  have main : ∀ (l : List (List ℚ)) (acc : List ℚ), acc.length = dim → (∀ v ∈ l, v.length = dim) →
      l.foldl (List.zipWith (· + ·)) acc = (List.range dim).map fun i => acc.getD i 0 + (l.map fun v => v.getD i 0).sum := by
    intro l
    induction l with
    | nil =>
      intro acc ha _
      apply List.ext_getElem
      · simp [ha]
      · intro i h1 h2
        have h1' : i < acc.length := h1
        simp [List.getD_eq_getElem?_getD, List.getElem?_eq_getElem h1']
    | cons v l ih =>
      intro acc ha hv
      have hv0 : v.length = dim := hv v (by simp)
      rw [List.foldl_cons, ih _ (by simp [ha, hv0]) fun w hw => hv w (by simp [hw])]
      apply List.map_congr_left
      intro i hi
      have hi' : i < dim := by simpa using hi
      have h1 : i < acc.length := by omega
      have h2 : i < v.length := by omega
      simp [List.getD_eq_getElem?_getD, List.getElem?_zipWith, List.getElem?_eq_getElem h1, List.getElem?_eq_getElem h2, add_assoc]
  unfold sumTuples columnSums
  rw [main l _ (by simp) hl]
  apply List.map_congr_left
  intro i hi
  have : i < dim := by simpa using hi
  simp [List.getD_eq_getElem?_getD, this]

theorem columnSums_perm {dim : Nat} {l l' : List (List ℚ)} (h : l.Perm l') : columnSums dim l = columnSums dim l' := by
  unfold columnSums
  apply List.map_congr_left
  intro i _
  exact (h.map _).sum_eq

/-- What an objective gives for one ride (Taxi-Sharing and Hash Code). -/
def rideValue (E : Env) (x : Ride) : Objective → ℚ
  | .dialARide => 0
  | .taxiSharing => if (E.trip x.trip).capacity = 0 then 0 else x.drop - x.pick
  | .hashCode => if (E.trip x.trip).capacity = 0 then 0 else x.earned E

theorem WellFormed.plannedTrip_reads (hw : WellFormed c r) {p : Nat} (hp : p ∈ routePlannedTrips c r) {k : Objective}
    (hk : k ≠ .dialARide) : Reads E c (c.route r).stops (k.plannedTrip E p) [rideValue E (rideOf E c p) k] := by
  cases k with
  | dialARide => exact absurd rfl hk
  | taxiSharing =>
    refine Reads.read fun h hc => ?_
    rw [hc]
    simp only [rideValue]
    by_cases h0 : (ptTrip E c p).capacity = 0
    · rw [if_pos h0, if_pos (show (E.trip (rideOf E c p).trip).capacity = 0 from h0)]; exact Reads.pure _
    · rw [if_neg h0, if_neg (show ¬ (E.trip (rideOf E c p).trip).capacity = 0 from h0)]
      exact (hw.ptDuration_ride hp).bind (Reads.pure _)
  | hashCode =>
    refine Reads.read fun h hc => ?_
    rw [hc]
    simp only [rideValue]
    by_cases h0 : (ptTrip E c p).capacity = 0
    · rw [if_pos h0, if_pos (show (E.trip (rideOf E c p).trip).capacity = 0 from h0)]; exact Reads.pure _
    · rw [if_neg h0, if_neg (show ¬ (E.trip (rideOf E c p).trip).capacity = 0 from h0)]
      have := (hw.pickupTime_reads (E := E) hp).bind (f := fun u => (pure [(ptTrip E c p).distance E.metric +
        if (ptTrip E c p).originEarliest = u then (ptTrip E c p).onTimeBonus else 0] : M (List ℚ))) (Reads.pure _)
      simp only [Ride.earned, eq_comm (a := (rideOf E c p).pick)]
      exact this

theorem sum_singletons (l : List ℚ) : sumTuples 1 (l.map fun q => [q]) = [l.sum] := by
  rw [sumTuples_eq 1 (by simp)]
  simp [columnSums, List.map_map, Function.comp_def]

theorem WellFormed.stopValue_reads (hw : WellFormed c r) {s : Nat} (hs : s ∈ (c.route r).stops) {k : Objective}
    (hk : k ≠ .dialARide) : Reads E c (c.route r).stops (k.stop E s)
      [((c.stop s).pickups.map fun p => rideValue E (rideOf E c p) k).sum] := by
  refine Reads.read fun h hc => ?_
  rw [hc]
  refine (Reads.mapEach fun p hp => hw.plannedTrip_reads (E := E) (List.mem_flatMap.2 ⟨s, hs, hp⟩) hk).bind ?_
  have hd : k.dim = 1 := by cases k <;> first | rfl | exact absurd rfl hk
  have := sum_singletons ((c.stop s).pickups.map fun p => rideValue E (rideOf E c p) k)
  rw [List.map_map] at this
  rw [hd, ← this]
  exact Reads.pure _

theorem sum_filter_zero {α : Type} (l : List α) (p : α → Prop) [DecidablePred p] (f : α → ℚ) :
    ((l.filter fun x => decide (¬ p x)).map f).sum = (l.map fun x => if p x then 0 else f x).sum := by
  induction l with
  | nil => rfl
  | cons x l ih =>
    by_cases hx : p x
    · simp only [List.filter_cons, hx, not_true_eq_false, decide_false, Bool.false_eq_true, if_false, List.map_cons,
        List.sum_cons, if_true, zero_add]
      exact ih
    · simp only [List.filter_cons, hx, not_false_eq_true, decide_true, if_true, List.map_cons, List.sum_cons, if_false]
      rw [ih]

theorem tourLength_chain {veh : Nat} : ∀ (suf pre : List Nat), LinkedFrom c pre.getLast? suf → (∀ s ∈ suf, (c.stop s).vehicle = veh) →
    tourLength E (pre.getLast?.elim (E.vehicle veh).origin.position fun s => (c.stop s).position) (suf.map fun s => (c.stop s).position) =
      (suf.map fun s => stopDistance E c s).sum := by
  intro suf
  induction suf with
  | nil => intros; rfl
  | cons s suf ih =>
    intro pre hl hv
    have h1 := ih (pre ++ [s]) (by simpa using hl.2) (fun x hx => hv x (by simp [hx]))
    have h2 : (c.stop s).previous = pre.getLast? := hl.1
    simp only [List.getLast?_append, List.getLast?_singleton, Option.some_or, Option.elim_some] at h1
    simp only [List.map_cons, tourLength, List.sum_cons, h1, stopDistance, stopPrevPosition, h2]
    cases pre.getLast? with
    | none => simp [hv s (by simp)]
    | some q => rfl

theorem Chained.distance_eq (hc : Chained c r) :
    tourLength E (E.vehicle (c.route r).vehicle).origin.position ((itinerary c r).map Visit.pos) = routeDistance E c r := by
  have := tourLength_chain (E := E) (c.route r).stops [] (linked_iff_from.1 hc.linked) hc.vehicle
  simpa [itinerary, List.map_map, Function.comp_def, visitOf, routeDistance] using this

/-- Each objective computes the value of a route from its itinerary. -/
theorem WellFormed.routeValue_reads (hw : WellFormed c r) (k : Objective) :
    Reads E c (c.route r).stops (k.route E r) (routeValue E (E.vehicle (c.route r).vehicle) (itinerary c r) k) := by
  have main : ∀ k : Objective, k ≠ .dialARide → Reads E c (c.route r).stops
      ((Py.mapEach (c.route r).stops (k.stop E)) >>= fun l => pure (sumTuples k.dim l))
      [((routePlannedTrips c r).map fun p => rideValue E (rideOf E c p) k).sum] := by
    intro k hk
    refine (Reads.mapEach fun s hs => hw.stopValue_reads (E := E) hs hk).bind ?_
    have hd : k.dim = 1 := by cases k <;> first | rfl | exact absurd rfl hk
    have := sum_singletons ((c.route r).stops.map fun s => ((c.stop s).pickups.map fun p => rideValue E (rideOf E c p) k).sum)
    rw [List.map_map] at this
    rw [hd]
    have e : ((routePlannedTrips c r).map fun p => rideValue E (rideOf E c p) k).sum =
        ((c.route r).stops.map fun s => ((c.stop s).pickups.map fun p => rideValue E (rideOf E c p) k).sum).sum := by
      unfold routePlannedTrips
      induction (c.route r).stops with
      | nil => rfl
      | cons s l ih => simp [ih]
    rw [e, ← this]
    exact Reads.pure _
  refine Reads.read fun h hc => ?_
  rw [hc]
  cases k with
  | dialARide =>
    simp only [routeValue, picks_eq, hw.distance_eq]
    exact Reads.pure _
  | taxiSharing =>
    have := main .taxiSharing (by decide)
    simp only [routeValue, hw.rides_eq]
    rw [sum_filter_zero _ (fun x : Ride => (E.trip x.trip).capacity = 0), List.map_map]
    exact this
  | hashCode =>
    have := main .hashCode (by decide)
    simp only [routeValue, hw.rides_eq]
    rw [sum_filter_zero _ (fun x : Ride => (E.trip x.trip).capacity = 0), List.map_map]
    exact this

theorem routeValue_length (veh : Vehicle) (l : List Visit) (k : Objective) : (routeValue E veh l k).length = k.dim := by
  cases k <;> rfl

theorem planningValue_reads (k : Objective) {l : List Nat} (hw : ∀ r ∈ l, WellFormed c r) :
    Reads E c (allStops c l) (k.planning E l) (planningValue E k (l.map (planOf E c))) := by
  refine (Reads.mapEach fun r hr => ((hw r hr).routeValue_reads (E := E) k).mono
    fun s hs => List.mem_flatMap.2 ⟨r, hr, hs⟩).bind ?_
  rw [sumTuples_eq k.dim (by simp [routeValue_length])]
  unfold planningValue
  rw [List.map_map]
  exact Reads.pure _

/-! ## Planned trips of the Dial-a-Ride objective, and lists of values -/

theorem distanceWalk_reads (hc : Chained c r) {u : Nat} : ∀ (mid pre suf : List Nat) (d n : Nat) (acc : ℚ) {L : List Nat},
    (c.route r).stops = pre ++ u :: (mid ++ d :: suf) → mid.length + 1 < n →
    Reads E c L (distanceWalk E (some u) n (some d) acc)
      (acc - tourLength E (c.stop u).position ((mid ++ [d]).map fun s => (c.stop s).position)) := by
  intro mid
  induction mid using List.reverseRec with
  | nil =>
    intro pre suf d n acc L e hn
    obtain ⟨n, rfl⟩ : ∃ m, n = m + 2 := ⟨n - 2, by simp at hn; omega⟩
    have hne : d ≠ u := by
      rintro rfl
      have := hc.nodup
      rw [e] at this
      simp [List.nodup_append] at this
    have hp : (c.stop d).previous = some u := by
      have := hc.linked (pre ++ [u]) d suf (by simp [e])
      simpa using this
    rw [distanceWalk, if_neg (by simpa using hne)]
    refine (Reads.unwrap rfl).bind (Reads.read fun h hh => ?_)
    rw [hh, hp]
    simp only
    rw [distanceWalk, if_pos rfl]
    have e1 : stopDistance E c d = E.metric (c.stop d).position (c.stop u).position := by
      simp [stopDistance, stopPrevPosition, hp]
    simp only [List.nil_append, List.map_cons, List.map_nil, tourLength, add_zero, e1]
    exact Reads.pure _
  | append_singleton mid m ih =>
    intro pre suf d n acc L e hn
    obtain ⟨n, rfl⟩ : ∃ k, n = k + 1 := ⟨n - 1, by omega⟩
    have hne : d ≠ u := by
      rintro rfl
      have := hc.nodup
      rw [e] at this
      simp [List.nodup_append] at this
    have hp : (c.stop d).previous = some m := by
      have := hc.linked (pre ++ u :: (mid ++ [m])) d suf (by simp [e])
      simpa [List.getLast?_append, List.getLast?_cons] using this
    rw [distanceWalk, if_neg (by simpa using hne)]
    refine (Reads.unwrap rfl).bind (Reads.read fun h hh => ?_)
    rw [hh, hp]
    simp only
    have := ih pre (d :: suf) m n (acc - stopDistance E c d) (L := L) (by simp [e]) (by simpa using hn)
    have e1 : stopDistance E c d = E.metric (c.stop d).position (c.stop m).position := by
      simp [stopDistance, stopPrevPosition, hp]
    have e2 : ∀ (l : List Pos) (p a b : Pos), tourLength E p (l ++ [a] ++ [b]) = tourLength E p (l ++ [a]) + E.metric b a := by
      intro l
      induction l with
      | nil => intro p a b; simp [tourLength]
      | cons x l ih => intro p a b; simp only [List.cons_append, tourLength, ih]; ring
    have e3 := e2 (mid.map fun s => (c.stop s).position) (c.stop u).position (c.stop m).position (c.stop d).position
    simp only [List.map_append, List.map_cons, List.map_nil] at this ⊢
    rw [e3]
    convert this using 1
    rw [e1]; ring

theorem TripHasValue.reads {h : Heap} {k : Objective} {p : Nat} {v : List ℚ} (hv : TripHasValue E h k p v) :
    (∃ L, (∀ s ∈ L, CohAt E h s) ∧ Reads E h.core L (k.plannedTrip E p) v) ∧ v.length = k.dim := by
  obtain ⟨r, u, d, pre, mid, suf, x, y, hs, e, hpu, hpd, hx, hy, rfl⟩ := hv
  refine ⟨⟨(h.core.route r).stops, (cachesAgree_iff hs.1.toChained).1 hs.2, ?_⟩, by cases k <;> rfl⟩
  have hw := hs.1
  have hus : u ∈ (h.core.route r).stops := by rw [e]; simp
  have hp : p ∈ routePlannedTrips h.core r := List.mem_flatMap.2 ⟨u, hus, hpu⟩
  have hu := (hw.pick pre u _ e p hpu).2.1
  have hd := (hw.drop (pre ++ u :: mid) d suf (by simp [e]) p hpd).2.1
  have hx' : x = tmAt E h.core u := by
    have := (hw.timetable_idx (E := E) (k := pre.length) (s := u) (by rw [e]; simp)).1
    rw [hx] at this; exact Option.some.inj this
  have hy' : y = tmAt E h.core d := by
    have := (hw.timetable_idx (E := E) (k := pre.length + 1 + mid.length) (s := d) (by
      rw [e, show pre ++ u :: (mid ++ d :: suf) = (pre ++ u :: mid) ++ d :: suf by simp]
      rw [List.getElem?_append_right (by simp; omega)]
      simp [show pre.length + 1 + mid.length - (pre.length + (mid.length + 1)) = 0 by omega])).1
    rw [hy] at this; exact Option.some.inj this
  subst hx' hy'
  have hr : rideOf E h.core p = ⟨(h.core.pt p).trip, (tmAt E h.core u).dep, (tmAt E h.core d).start⟩ := by
    simp [rideOf, pickStop, dropStop, hu, hd]
  cases k with
  | dialARide =>
    refine Reads.read fun h' hh => ?_
    rw [hh, hu, hd]
    have hlen := length_le_nStop hw.nodup hw.alloc
    have := distanceWalk_reads (E := E) hw.toChained mid pre suf d (h.core.nStop + 1) 0 (L := (h.core.route r).stops) e (by
      rw [e] at hlen; simp at hlen; omega)
    rw [zero_sub] at this
    exact this.bind (Reads.pure _)
  | taxiSharing =>
    have := hw.plannedTrip_reads (E := E) hp (k := .taxiSharing) (by decide)
    simpa [rideValue, hr, tripValue] using this
  | hashCode =>
    have := hw.plannedTrip_reads (E := E) hp (k := .hashCode) (by decide)
    simpa [rideValue, hr, tripValue] using this

/-- Evaluating keys one after the other, each readable in the initial heap. -/
theorem mapEach_reads₂ {α β : Type} {f : α → M β} {l : List α} {vs : List β} {h : Heap}
    (hv : List.Forall₂ (fun x v => ∃ L, (∀ s ∈ L, CohAt E h s) ∧ Reads E h.core L (f x) v) l vs) :
    ∃ L, (∀ s ∈ L, CohAt E h s) ∧ Reads E h.core L (Py.mapEach l f) vs := by
  induction hv with
  | nil => exact ⟨[], by simp, Reads.pure _⟩
  | cons h1 _ ih =>
    obtain ⟨L1, c1, r1⟩ := h1
    obtain ⟨L2, c2, r2⟩ := ih
    refine ⟨L1 ++ L2, ?_, ?_⟩
    · intro s hs
      rcases List.mem_append.1 hs with hs | hs
      · exact c1 s hs
      · exact c2 s hs
    · exact Reads.bind (r1.mono fun s hs => List.mem_append_left _ hs)
        (Reads.bind (r2.mono fun s hs => List.mem_append_right _ hs) (Reads.pure _))

theorem forall₂_imp_left {α β : Type} {R S : α → β → Prop} (hRS : ∀ a b, R a b → S a b) {l : List α} {l' : List β}
    (h : List.Forall₂ R l l') : List.Forall₂ S l l' := by
  induction h with
  | nil => exact .nil
  | cons h1 _ ih => exact .cons (hRS _ _ h1) ih

theorem HasValue.reads {h : Heap} {k : Objective} {o : Optimizable} {v : List ℚ} (hv : HasValue E h k o v) :
    ∃ L, (∀ s ∈ L, CohAt E h s) ∧ Reads E h.core L (k.value E o) v := by
  cases hv with
  | tuple => exact ⟨[], by simp, Reads.pure _⟩
  | plannedTrip hv => exact hv.reads.1
  | route hs => exact ⟨_, (cachesAgree_iff hs.1.toChained).1 hs.2, hs.1.routeValue_reads k⟩
  | planning hs => exact ⟨_, Sound.coh hs, planningValue_reads k fun r hr => (hs r hr).1⟩
  | result hs => exact ⟨_, Sound.coh hs, planningValue_reads k fun r hr => (hs r hr).1⟩
  | @stop r s vs hs hm hv =>
    obtain ⟨L, c1, r1⟩ := mapEach_reads₂ (forall₂_imp_left (fun _ _ h => h.reads.1) hv)
    refine ⟨L, c1, Reads.read fun h' hh => ?_⟩
    rw [hh]
    refine r1.bind ?_
    rw [sumTuples_eq k.dim ?_]
    · exact Reads.pure _
    · clear r1 c1
      intro v hv'
      generalize (h.core.stop s).pickups = ps at hv
      induction hv with
      | nil => simp at hv'
      | cons h1 _ ih =>
        rcases List.mem_cons.1 hv' with rfl | hv'
        · exact h1.reads.2
        · exact ih hv'

theorem keyed_hasValue {h : Heap} {k : Objective} {l : List Optimizable} {vs : List (List ℚ)}
    (hv : List.Forall₂ (HasValue E h k) l vs) :
    ∃ h', keyed (k.value E) l h = (.ok (l.zip vs), h') ∧ Grows E h h' := by
  have : List.Forall₂ (fun x v => ∃ L, (∀ s ∈ L, CohAt E h s) ∧
      Reads E h.core L (do let a ← k.value E x; pure (x, a)) v) l (l.zip vs) := by
    induction hv with
    | nil => exact .nil
    | cons h1 _ ih =>
      obtain ⟨L, c1, r1⟩ := h1.reads
      exact .cons ⟨L, c1, r1.bind (Reads.pure _)⟩ ih
  obtain ⟨L, c1, r1⟩ := mapEach_reads₂ this
  exact r1 h rfl c1

end Jinete
