import Verif.Model.Getters
import Verif.Props.Feasible
import Verif.Proofs.Steady

/-!
# C124, C125: further properties of routes
-/

set_option autoImplicit false

namespace Jinete

variable {E : Env} {c : Core} {r : Nat}

/-! ## C124 -/

theorem feasibleStops_evals (hE : EnvOK E) (hw : WellFormed c r) :
    Evals E c (c.route r).stops (feasibleStops E r) fun h => (c.route r).stops.all (effS E h) := by
  refine Evals.read fun h hc => ?_
  rw [hc]
  have h1 : Evals E c (c.route r).stops (Py.mapEach (c.route r).stops (stopFeasible E))
      fun h => (c.route r).stops.map fun s => effS E h s :=
    Evals.mapEach (g := fun s h => effS E h s) (fun s hs => stopFeasible_evals hE hw hs) (fun s _ => stable_effS s)
  have h2 := h1.bind (g := fun l _ => l.foldl (fun a b => a && b) true) (k := fun l => pure (l.foldl (fun a b => a && b) true))
    (fun l => Evals.pure _) (fun _ => stable_const _)
  have h3 : ∀ (l : List Bool) (b : Bool), l.foldl (fun a b => a && b) b = (b && l.all id) := by
    intro l
    induction l with
    | nil => intro b; simp
    | cons x l ih => intro b; simp [ih, Bool.and_assoc]
  intro h' hc' hL
  obtain ⟨h'', e, g⟩ := h2 h' hc' hL
  refine ⟨h'', ?_, g⟩
  simp only at e ⊢
  rw [e, h3]
  simp [List.all_map]

/-- The constraints at every visit of an itinerary. -/
def VisitsOK (E : Env) (veh : Vehicle) (l : List Visit) : Prop :=
  ∀ (k : Nat) (v : Visit) (x : Tm) (q : ℚ), l[k]? = some v → (vehicleTimetable E veh l)[k]? = some x → (loads E 0 l)[k]? = some q →
    VisitOK E veh v x q

/-- The limits of all rides of an itinerary. -/
def RidesOK (E : Env) (veh : Vehicle) (l : List Visit) : Prop :=
  ∀ (i j : Nat) (v w : Visit) (x y : Tm) (t : Nat), l[i]? = some v → l[j]? = some w →
    (vehicleTimetable E veh l)[i]? = some x → (vehicleTimetable E veh l)[j]? = some y → t ∈ v.picks → t ∈ w.drops →
    ((E.trip t).timeout.addQ errorBound).leQ (y.start - x.dep) = true

theorem visitsOK_iff (hc : Chained c r) :
    VisitsOK E (E.vehicle (c.route r).vehicle) (itinerary c r) ↔ ∀ s ∈ (c.route r).stops, stopV E c s = true := by
  constructor
  · intro h s hs
    obtain ⟨k, hk⟩ := List.getElem?_of_mem hs
    obtain ⟨h1, h2, h3⟩ := hc.timetable_idx (E := E) hk
    exact (visitOK_iff hc hs).1 (h k _ _ _ h3 h1 h2)
  · intro h k v x q hv hx hq
    obtain ⟨s, hs⟩ : ∃ s, (c.route r).stops[k]? = some s := by
      have : k < (itinerary c r).length := (List.getElem?_eq_some_iff.1 hv).1
      rw [itinerary, List.length_map] at this
      exact ⟨_, List.getElem?_eq_getElem this⟩
    obtain ⟨h1, h2, h3⟩ := hc.timetable_idx (E := E) hs
    have e1 := hx.symm.trans h1
    have e2 := hq.symm.trans h2
    have e3 := hv.symm.trans h3
    simp only [Option.some.injEq] at e1 e2 e3
    subst e1 e2 e3
    exact (visitOK_iff hc (List.mem_of_getElem? hs)).2 (h s (List.mem_of_getElem? hs))

/-- Where trips are served well, the vehicle is nowhere over its capacity. -/
theorem stops_of_trips (hw : WellFormed c r) (hq : 0 ≤ (E.vehicle (c.route r).vehicle).capacity)
    (h : ∀ p ∈ routePlannedTrips c r, tripV E c p = true) : ∀ pre s suf, (c.route r).stops = pre ++ s :: suf → stopV E c s = true := by
  intro pre
  induction pre using List.reverseRecOn with
  | nil =>
    intro s suf e
    have hd := hw.depot s (by rw [e]; simp)
    have hs : s ∈ (c.route r).stops := by rw [e]; simp
    rw [stopV_iff, leQ_stopLatest, hd.1, hd.2, hw.vehicle s hs, hw.toChained.loadAt_eq e]
    refine ⟨⟨by simp, by simp⟩, ?_⟩
    simp only [List.reverse_nil, loadRev, visitOf, hd.1, hd.2, List.map_nil, tripsCapacity, List.sum_nil]
    have : (0 : ℚ) ≤ errorBound := by norm_num [errorBound]
    linarith
  | append_singleton pre u ih =>
    intro s suf e
    have e' : (c.route r).stops = pre ++ u :: (s :: suf) := by rw [e]; simp
    have hu := ih u (s :: suf) e'
    have hs : s ∈ (c.route r).stops := by rw [e]; simp
    have hus : u ∈ (c.route r).stops := by rw [e]; simp
    by_cases h1 : ∃ p, p ∈ (c.stop s).pickups
    · obtain ⟨p, hp⟩ := h1
      obtain ⟨_, k1, d, _, k2, _⟩ := hw.pick _ s suf e p hp
      have := h p (List.mem_flatMap.2 ⟨s, hs, hp⟩)
      unfold tripV at this
      simp only [k1, k2, Bool.and_eq_true] at this
      exact this.1.1
    by_cases h2 : ∃ p, p ∈ (c.stop s).deliveries
    · obtain ⟨p, hp⟩ := h2
      obtain ⟨_, k1, x, hx, k2, hpx⟩ := hw.drop _ s suf e p hp
      have := h p (List.mem_flatMap.2 ⟨x, by rw [e]; exact List.mem_append_left _ hx, hpx⟩)
      unfold tripV at this
      simp only [k1, k2, Bool.and_eq_true] at this
      exact this.1.2
    have n1 : (c.stop s).pickups = [] := List.eq_nil_iff_forall_not_mem.2 fun p hp => h1 ⟨p, hp⟩
    have n2 : (c.stop s).deliveries = [] := List.eq_nil_iff_forall_not_mem.2 fun p hp => h2 ⟨p, hp⟩
    rw [stopV_iff, hw.vehicle u hus, hw.toChained.loadAt_eq e'] at hu
    rw [stopV_iff, leQ_stopLatest, n1, n2, hw.vehicle s hs, hw.toChained.loadAt_eq e]
    refine ⟨⟨by simp, by simp⟩, ?_⟩
    simp only [List.reverse_append, List.reverse_singleton, List.singleton_append, loadRev, visitOf, n1, n2, List.map_nil, tripsCapacity,
      List.sum_nil, add_zero, sub_zero]
    exact hu.2

/-- The constraints of an itinerary, taken apart. -/
theorem feasible_parts (hw : WellFormed c r) (hq : 0 ≤ (E.vehicle (c.route r).vehicle).capacity) :
    FeasibleItinerary E (E.vehicle (c.route r).vehicle) (itinerary c r) ↔
      VehicleOK E (E.vehicle (c.route r).vehicle) (itinerary c r) ∧ VisitsOK E (E.vehicle (c.route r).vehicle) (itinerary c r) ∧
      RidesOK E (E.vehicle (c.route r).vehicle) (itinerary c r) := by
  constructor
  · intro hf
    have hv := (freshV_iff hw).2 hf
    unfold freshV at hv
    rw [Bool.and_eq_true, List.all_eq_true] at hv
    refine ⟨hf.vehicle, (visitsOK_iff hw.toChained).2 fun s hs => ?_, ?_⟩
    · obtain ⟨pre, suf, e⟩ := List.append_of_mem hs
      exact stops_of_trips hw hq hv.2 pre s suf e
    · intro i j v w x y t hv hw' hx hy h1 h2
      have li : i < (loads E 0 (itinerary c r)).length := by
        obtain ⟨s, hs⟩ : ∃ s, (c.route r).stops[i]? = some s := by
          have : i < (itinerary c r).length := (List.getElem?_eq_some_iff.1 hv).1
          rw [itinerary, List.length_map] at this
          exact ⟨_, List.getElem?_eq_getElem this⟩
        exact (List.getElem?_eq_some_iff.1 (hw.toChained.timetable_idx (E := E) hs).2.1).1
      have lj : j < (loads E 0 (itinerary c r)).length := by
        obtain ⟨s, hs⟩ : ∃ s, (c.route r).stops[j]? = some s := by
          have : j < (itinerary c r).length := (List.getElem?_eq_some_iff.1 hw').1
          rw [itinerary, List.length_map] at this
          exact ⟨_, List.getElem?_eq_getElem this⟩
        exact (List.getElem?_eq_some_iff.1 (hw.toChained.timetable_idx (E := E) hs).2.1).1
      exact (hf.trips i j v w x y _ _ t hv hw' hx hy (List.getElem?_eq_getElem li) (List.getElem?_eq_getElem lj) h1 h2).ride
  · rintro ⟨h1, h2, h3⟩
    refine (freshV_iff hw).1 ?_
    unfold freshV
    rw [Bool.and_eq_true, List.all_eq_true, vehV_iff hw]
    refine ⟨h1, fun p hp => ?_⟩
    obtain ⟨u, d, pre, mid, suf, e, k1, k2, hpu, hpd⟩ := hw.stops_of hp
    have hs := (visitsOK_iff hw.toChained).1 h2
    have hu : (c.route r).stops[pre.length]? = some u := by rw [e]; simp
    have hd : (c.route r).stops[pre.length + 1 + mid.length]? = some d := by
      rw [e, List.getElem?_append_right (by omega)]
      rw [show pre.length + 1 + mid.length - pre.length = mid.length + 1 by omega]
      simp
    obtain ⟨a1, _, a3⟩ := hw.toChained.timetable_idx (E := E) hu
    obtain ⟨b1, _, b3⟩ := hw.toChained.timetable_idx (E := E) hd
    unfold tripV
    simp only [k1, k2, Bool.and_eq_true]
    refine ⟨⟨hs u (List.mem_of_getElem? hu), hs d (List.mem_of_getElem? hd)⟩, ?_⟩
    exact h3 _ _ _ _ _ _ _ a3 b3 a1 b1 (List.mem_map_of_mem hpu) (List.mem_map_of_mem hpd)

/-- **C124.** On a well formed route with agreeing memoised times and no memoised verdict, of a vehicle whose capacity is not negative:
`feasible` and, after it, `feasible_stops` return verdicts. `feasible_stops` is `True` exactly when at every stop, the depots included,
the trips are served in time and the vehicle is not over its capacity. `feasible` is `True` exactly when `feasible_stops` is
and the constraints of the vehicle and the limits of the rides are met. -/
theorem C124_feasible_stops (hE : EnvOK E) (h : Heap) (hw : WellFormed h.core r) (ha : CachesAgree E h r) (hn : NoVerdicts h r)
    (hq : 0 ≤ (E.vehicle (h.core.route r).vehicle).capacity) :
    ∃ b b' h1 h2, routeFeasible E r h = (.ok b, h1) ∧ feasibleStops E r h1 = (.ok b', h2) ∧ h2.core = h.core ∧
      (b' = true ↔ VisitsOK E (E.vehicle (h.core.route r).vehicle) (itinerary h.core r)) ∧
      (b = true ↔ b' = true ∧ VehicleOK E (E.vehicle (h.core.route r).vehicle) (itinerary h.core r) ∧
        RidesOK E (E.vehicle (h.core.route r).vehicle) (itinerary h.core r)) := by
  obtain ⟨b, _, e0, hb, _⟩ := C18_feasible_iff_constraints hE h r hw ha hn
  have hL := (cachesAgree_iff hw.toChained).1 ha
  obtain ⟨h1, e1, g1⟩ := routeFeasible_evals hE hw h rfl hL
  obtain ⟨h2, e2, g2⟩ := feasibleStops_evals hE hw h1 g1.core fun s hs => g1.coh (hL s hs)
  have eb : effR E h r = b := by
    have := e1.symm.trans e0
    simpa using congrArg Prod.fst this
  have es : ((h.core.route r).stops.all (effS E h1) = true ↔ VisitsOK E (E.vehicle (h.core.route r).vehicle) (itinerary h.core r)) := by
    rw [visitsOK_iff hw.toChained, List.all_eq_true]
    refine forall_congr' fun s => forall_congr' fun hs => ?_
    rw [g1.effS, effS, hn.stops s hs, Option.getD_none]
  refine ⟨_, _, h1, h2, e1, e2, g2.core.trans g1.core, es, ?_⟩
  beta_reduce
  rw [eb, hb, feasible_parts hw hq, es]
  tauto

/-- The capacity has to be known not to be negative: a vehicle of capacity minus one that serves nobody is feasible, its stops are
not. -/
theorem C124_negative_capacity : ∃ (E : Env) (h h1 h2 : Heap), EnvOK E ∧ WellFormed h.core 0 ∧ NoVerdicts h 0 ∧
    routeFeasible E 0 h = (.ok true, h1) ∧ feasibleStops E 0 h1 = (.ok false, h2) := by
  let E : Env := { demoEnv with vehicle := fun _ => { origin := { position := [0] }, capacity := -1 } }
  refine ⟨E, (newRoute E 0 Heap.empty).2, _, _, ⟨demoEnv_ok.metric, demoEnv_ok.originDuration, demoEnv_ok.destinationDuration,
    demoEnv_ok.capacity⟩, wfB_sound (by decide +kernel), ⟨by decide +kernel, by decide +kernel, by decide +kernel⟩,
    Prod.ext (by decide +kernel) rfl, Prod.ext (by decide +kernel) rfl⟩

/-- C124 on the demo route, on which two passengers share the ride. -/
example : (feasibleStops demoEnv 2 demoFreshHeap).1 = .ok true ∧ (routeFeasible demoEnv 2 demoFreshHeap).1 = .ok true := by decide +kernel

/-! ## C125 -/

/-- **C125**, trips: what is picked up on a well formed route is what is delivered, each planned trip once, and of its trips those
with passengers are counted. -/
theorem C125_deliveries (E : Env) (hw : WellFormed c r) :
    (routeDeliveries c r).Perm (routePlannedTrips c r) ∧ (routePlannedTrips c r).Nodup ∧
    loadedTripsCount E c r + (routeTrips c r).countP (fun t => (E.trip t).empty) = (routeTrips c r).length := by
  refine ⟨(List.perm_ext_iff_of_nodup ?_ hw.pickups_nodup).2 fun p => ?_, hw.pickups_nodup, ?_⟩
  · refine List.nodup_flatMap.2 ⟨fun s hs => (hw.sets s hs).2, ?_⟩
    refine (hw.nodup.pairwise_of_forall_ne ?_)
    intro a ha b hb hne
    refine List.disjoint_left.2 fun p h1 h2 => hne ?_
    obtain ⟨pre, suf, e⟩ := List.append_of_mem ha
    obtain ⟨pre', suf', e'⟩ := List.append_of_mem hb
    have k1 := (hw.drop pre a suf e p h1).2.1
    have k2 := (hw.drop pre' b suf' e' p h2).2.1
    exact Option.some.inj (k1.symm.trans k2)
  · constructor
    · intro hp
      obtain ⟨s, hs, h1⟩ := List.mem_flatMap.1 hp
      obtain ⟨pre, suf, e⟩ := List.append_of_mem hs
      obtain ⟨_, _, u, hu, _, h2⟩ := hw.drop pre s suf e p h1
      exact List.mem_flatMap.2 ⟨u, by rw [e]; exact List.mem_append_left _ hu, h2⟩
    · intro hp
      obtain ⟨u, d, pre, mid, suf, e, _, _, _, h⟩ := hw.stops_of hp
      exact List.mem_flatMap.2 ⟨d, by rw [e]; simp, h⟩
  · unfold loadedTripsCount loadedPlannedTrips routeTrips
    rw [List.length_map, List.length_map, List.countP_map]
    rw [← List.countP_eq_length_filter, List.length_eq_countP_add_countP (l := routePlannedTrips c r) fun p => !(ptTrip E c p).empty]
    congr 1
    refine List.countP_congr fun p _ => ?_
    simp [ptTrip]

/-- **C125**, the past: at a stop of a well formed route `all_previous_pickups` returns the planned trips picked up at the stops
before it, the latest stop first; whoever is delivered there is among them. -/
theorem C125_previous_pickups (h : Heap) (hw : WellFormed h.core r) {pre suf : List Nat} {s : Nat}
    (e : (h.core.route r).stops = pre ++ s :: suf) :
    allPreviousPickups s h = (.ok (pre.reverse.flatMap fun u => (h.core.stop u).pickups), h) ∧
    ∀ p ∈ (h.core.stop s).deliveries, p ∈ pre.reverse.flatMap fun u => (h.core.stop u).pickups := by
  constructor
  · obtain ⟨h', e', _⟩ := allPrevious_reads (E := demoEnv) (L := []) (hw.toChained.anc e) (hw.toChained.len e) h rfl (by simp)
    have : h' = h := by
      obtain ⟨v, hv⟩ := Settled.allPreviousF h.fuel s
      have := (hv h).symm.trans e'
      exact (congrArg Prod.snd this).symm
    rw [this] at e'
    unfold allPreviousPickups
    rw [Py.bind_ok e']
    rfl
  · intro p hp
    obtain ⟨_, _, u, hu, _, h2⟩ := hw.drop pre s suf e p hp
    exact List.mem_flatMap.2 ⟨u, by simpa using hu, h2⟩

/-- **C125**, the present: on a well formed route with agreeing memoised times the current stop is the one before the last, it is left at the time the
schedule says, and from there the vehicle drives straight to its last stop. -/
theorem C125_current (E : Env) (h : Heap) (hw : WellFormed h.core r) (ha : CachesAgree E h r) :
    ∃ cur last a d h1 h2 arr h3, currentStop r h = (.ok cur, h) ∧ lastStop r h = (.ok last, h) ∧
      currentPosition r h = (.ok (h.core.stop cur).position, h) ∧ lastPosition r h = (.ok (h.core.stop last).position, h) ∧
      currentArrivalTime E r h = (.ok a, h1) ∧ currentDepartureTime E r h1 = (.ok d, h2) ∧ arrival E last h2 = (.ok arr, h3) ∧
      (routeTimetable E h.core r)[(h.core.route r).stops.length - 2]?.map (fun x => (x.arr, x.dep)) = some (a, d) ∧
      arr = d + E.metric (h.core.stop cur).position (h.core.stop last).position := by
  obtain ⟨pre, cur, last, e⟩ : ∃ pre cur last, (h.core.route r).stops = pre ++ [cur, last] := by
    rcases List.eq_nil_or_concat' (h.core.route r).stops with h0 | ⟨l, last, h0⟩
    · have := hw.length; rw [h0] at this; simp at this
    rcases List.eq_nil_or_concat' l with h1 | ⟨pre, cur, h1⟩
    · have := hw.length; rw [h0, h1] at this; simp at this
    exact ⟨pre, cur, last, by rw [h0, h1]; simp⟩
  have ec : (h.core.route r).stops = pre ++ cur :: [last] := e
  have el : (h.core.route r).stops = (pre ++ [cur]) ++ last :: [] := by rw [e]; simp
  have hL := (cachesAgree_iff hw.toChained).1 ha
  have run : ∀ h' : Heap, h'.core = h.core → currentStop r h' = (.ok cur, h') := by
    intro h' hc
    have : currentStop r h' = Py.unwrap .indexError (h'.core.route r).stops.dropLast.getLast? h' := rfl
    rw [this, hc, el, List.dropLast_concat, List.getLast?_concat]
    rfl
  have s1 := run h rfl
  have s2 : lastStop r h = (.ok last, h) := by
    have : lastStop r h = Py.unwrap .indexError (h.core.route r).stops.getLast? h := rfl
    rw [this, el, List.getLast?_concat]
    rfl
  obtain ⟨h1, e1, g1⟩ := hw.toChained.arrival_reads ec h rfl hL
  have hL1 : ∀ s ∈ (h.core.route r).stops, CohAt E h1 s := fun s hs => g1.coh (hL s hs)
  have s1' := run h1 g1.core
  obtain ⟨h2, e2, g2⟩ := hw.toChained.departure_reads ec h1 g1.core hL1
  obtain ⟨h3, e3, g3⟩ := hw.toChained.arrival_reads el h2 (g2.core.trans g1.core) fun s hs => g2.coh (hL1 s hs)
  refine ⟨cur, last, (tmRev E h.core cur pre.reverse).arr, (tmRev E h.core cur pre.reverse).dep, h1, h2, _, h3, s1, s2, ?_, ?_, ?_, ?_, e3, ?_, ?_⟩
  · unfold currentPosition; rw [Py.bind_ok s1]; rfl
  · unfold lastPosition; rw [Py.bind_ok s2]; rfl
  · unfold currentArrivalTime; rw [Py.bind_ok s1]; exact e1
  · unfold currentDepartureTime; rw [Py.bind_ok s1']; exact e2
  · have hk : (h.core.route r).stops[(h.core.route r).stops.length - 2]? = some cur := by
      rw [e]; simp
    rw [(hw.toChained.timetable_idx (E := E) hk).1, hw.toChained.tmAt_eq ec]
    rfl
  · simp [tmRev, serve, visitOf]

/-- **C125**, the ends: on a well formed route with agreeing memoised times the first and the last stop are left at the times the
schedule says, and the positions are those of the visits. -/
theorem C125_ends (E : Env) (h : Heap) (hw : WellFormed h.core r) (ha : CachesAgree E h r) :
    ∃ a d h1 h2, firstDepartureTime E r h = (.ok a, h1) ∧ lastDepartureTime E r h1 = (.ok d, h2) ∧ h2.core = h.core ∧
      (routeTimetable E h.core r).head?.map (·.dep) = some a ∧ (routeTimetable E h.core r).getLast?.map (·.dep) = some d ∧
      routePositions h.core r = (itinerary h.core r).map Visit.pos := by
  obtain ⟨first, rest, e⟩ : ∃ first rest, (h.core.route r).stops = first :: rest := by
    cases h0 : (h.core.route r).stops with
    | nil => have := hw.length; rw [h0] at this; simp at this
    | cons a l => exact ⟨a, l, rfl⟩
  obtain ⟨pre, last, el⟩ : ∃ pre last, (h.core.route r).stops = pre ++ last :: [] := by
    rcases List.eq_nil_or_concat' (h.core.route r).stops with h0 | ⟨l, last, h0⟩
    · rw [e] at h0; cases h0
    · exact ⟨l, last, h0⟩
  have hL := (cachesAgree_iff hw.toChained).1 ha
  have s1 : firstStop r h = (.ok first, h) := by
    have : (h.core.stop first).previous = none := hw.toChained.anc (pre := []) e
    rw [Settled.firstStop_run, e]
    simp [this]
  obtain ⟨h1, e1, g1⟩ := hw.toChained.departure_reads (pre := []) e h rfl hL
  have s2 : lastStop r h1 = (.ok last, h1) := by
    have : lastStop r h1 = Py.unwrap .indexError (h1.core.route r).stops.getLast? h1 := rfl
    rw [this, g1.core, el, List.getLast?_concat]
    rfl
  obtain ⟨h2, e2, g2⟩ := hw.toChained.departure_reads el h1 g1.core fun s hs => g1.coh (hL s hs)
  have hlen : (routeTimetable E h.core r).length = (h.core.route r).stops.length := routeTimetable_length
  refine ⟨(tmRev E h.core first []).dep, (tmRev E h.core last pre.reverse).dep, h1, h2, ?_, ?_, g2.core.trans g1.core, ?_, ?_, ?_⟩
  · unfold firstDepartureTime; rw [Py.bind_ok s1]; exact e1
  · unfold lastDepartureTime; rw [Py.bind_ok s2]; exact e2
  · have hk : (h.core.route r).stops[0]? = some first := by rw [e]; rfl
    rw [List.head?_eq_getElem?, (hw.toChained.timetable_idx (E := E) hk).1, hw.toChained.tmAt_eq (pre := []) e]
    rfl
  · have hk : (h.core.route r).stops[(h.core.route r).stops.length - 1]? = some last := by rw [el]; simp
    rw [List.getLast?_eq_getElem?, hlen, (hw.toChained.timetable_idx (E := E) hk).1, hw.toChained.tmAt_eq el]
    rfl
  · simp [routePositions, itinerary, visitOf, Function.comp_def]

/-- The demo route: its two trips are delivered in another order than they are picked up. -/
example : routePlannedTrips demoHeap.core 2 = [1, 2] ∧ routeDeliveries demoHeap.core 2 = [2, 1] ∧
    loadedTripsCount demoEnv demoHeap.core 2 = 2 ∧ routePositions demoHeap.core 2 = [[0], [2], [4], [6], [8], [0]] ∧
    (allPreviousPickups 8 demoHeap).1 = .ok [2, 1] ∧ (currentDepartureTime demoEnv 2 demoHeap).1 = .ok 26 ∧
    (currentPosition 2 demoHeap).1 = .ok [8] ∧ (firstDepartureTime demoEnv 2 demoHeap).1 = .ok 0 ∧
    (lastDepartureTime demoEnv 2 demoHeap).1 = .ok 34 := by decide +kernel

end Jinete
