import Verif.Proofs.MilpFleet
import Verif.Proofs.MilpFeasible
import Verif.Props.Waiting

/-!
# Routes from solutions of the linear model (C76, C77)
-/

set_option autoImplicit false

namespace Jinete

variable {E : Env} {vs ts : List Nat} {a : Assignment} {o d : Pos}

/-! ## C76 -/

/-- The full property: from every solution one route is built for each vehicle, which follows the path of the vehicle. -/
def FollowsSolutions (E : Env) (vs ts : List Nat) : Prop :=
  ∀ a, (milpOf E vs ts).solves a = true → ∀ h : Heap, ∃ rs h', milpOptimize E vs ts a h = (.ok rs, h') ∧
    rs.length = vs.length ∧ ∀ k (hk : k < vs.length) (hk' : k < rs.length), ∃ ns, Follows E vs ts a k vs[k] h'.core rs[k] ns

theorem Readable.pos_zero (H : Readable E vs ts o) : (milpOf E vs ts).pos 0 = o := by
  obtain ⟨v0, vs', hvs'⟩ := List.exists_cons_of_ne_nil H.vehicles
  unfold Milp.pos
  rw [milpOf_positions hvs']
  exact H.origin v0 (by rw [hvs']; simp)

theorem Readable.pos_last (H : Readable E vs ts o) :
    ∃ v ∈ vs, (milpOf E vs ts).pos (2 * ts.length + 1) = (E.vehicle v).destination.position := by
  obtain ⟨v0, vs', hvs'⟩ := List.exists_cons_of_ne_nil H.vehicles
  refine ⟨v0, by rw [hvs']; simp, ?_⟩
  unfold Milp.pos
  rw [milpOf_positions hvs', List.getD_eq_getElem?_getD, List.getElem?_append_right (by simp; omega)]
  have : 2 * ts.length + 1 - ((E.vehicle v0).origin.position :: (List.map (fun t => (E.trip t).origin.position) ts ++
      List.map (fun t => (E.trip t).destination.position) ts)).length = 0 := by simp; omega
  rw [this]
  rfl

theorem Readable.closes' (H : Readable E vs ts o) : (milpOf E vs ts).Closes := by
  intro t ht
  obtain ⟨i, hi, rfl⟩ := List.mem_map.1 (show t ∈ ts.map E.trip from ht)
  exact H.closes i hi

theorem Readable.loading' (H : Readable E vs ts o) : ∀ t ∈ (milpOf E vs ts).trips, 0 < t.origin.duration := by
  intro t ht
  obtain ⟨i, hi, rfl⟩ := List.mem_map.1 (show t ∈ ts.map E.trip from ht)
  exact H.loading i hi

theorem Readable.tour (H : Readable E vs ts o) (hs : (milpOf E vs ts).solves a = true) {k : Nat} (hk : k < vs.length)
    (h0 : ¬ (milpOf E vs ts).Uses a k 0 0) : ∃ ns, (milpOf E vs ts).Tour a k ns :=
  Milp.tour_of (milpOf_vehicles H.vehicles) H.closes' H.metric H.loading' hs (by simpa [milpOf, Milp.m] using hk) h0

namespace Milp

theorem Tour.ends {P : Milp} (hv : P.vehicles ≠ []) (hc : P.Closes) (hm : ∀ p q, 0 ≤ P.metric p q)
    (hd : ∀ t ∈ P.trips, 0 < t.origin.duration) (hs : P.solves a = true) {k : Nat} (hk : k < P.m) {ns : List Nat}
    (T : P.Tour a k ns) : a.u k 0 ≤ a.u k (2 * P.n + 1) := by
  have hsol := (solves_iff a).1 hs
  have harcs := T.path.arcs
  rw [← List.cons_append] at harcs
  have hu : P.Uses a k ((0 :: ns).getLast (by simp)) (2 * P.n + 1) :=
    (List.isChain_append.1 harcs).2.2 _ (List.getLast?_eq_some_getLast (l := 0 :: ns) (by simp)) _ rfl
  have h1 := hsol.advance hv hc hk hu
  have h2 := hm (P.pos ((0 :: ns).getLast (by simp))) (P.pos (2 * P.n + 1))
  have hz : (0 :: ns).getLast (by simp) ∈ 0 :: ns := List.getLast_mem _
  unfold travel at h1
  generalize (0 :: ns).getLast (by simp) = z at h1 h2 hz
  rcases List.mem_cons.1 hz with rfl | hz
  · rw [loadTime_origin] at h1; linarith
  · have h3 := T.start z hz
    have h4 : 0 ≤ P.loadTime z := by
      unfold loadTime
      split
      · exact le_refl _
      · rename_i t ht
        unfold tripAt at ht
        split at ht
        · exact absurd ht (by simp)
        · split at ht <;> exact (hd t (List.mem_of_getElem? ht)).le
    linarith

end Milp

/-- The arc between the depots is used only if they are at the same place. -/
theorem Readable.back (H : Readable E vs ts o) (hs : (milpOf E vs ts).solves a = true) {k : Nat} (hk : k < vs.length)
    {ns : List Nat} (T : (milpOf E vs ts).Tour a k ns) (hu : (milpOf E vs ts).Uses a k (2 * ts.length + 1) 0) :
    (milpOf E vs ts).pos (2 * ts.length + 1) = (milpOf E vs ts).pos 0 := by
  have hv := milpOf_vehicles (E := E) (ts := ts) H.vehicles
  have hkm : k < (milpOf E vs ts).m := by simpa [milpOf, Milp.m] using hk
  have h1 := ((Milp.solves_iff a).1 hs).advance hv H.closes' hkm hu
  have h2 := T.ends hv H.closes' H.metric H.loading' hs hkm
  have h3 := Milp.loadTime_destination hv
  obtain ⟨v, hvm, e⟩ := H.pos_last
  rw [milpOf_n] at h2 h3
  rw [h3] at h1
  have h4 := H.metric (E.vehicle v).destination.position o
  unfold Milp.travel at h1
  rw [e, H.pos_zero] at h1 ⊢
  exact H.far v hvm (by
    have h5 : (milpOf E vs ts).metric = E.metric := rfl
    rw [h5] at h1
    linarith)

theorem Readable.decode (H : Readable E vs ts o) (hs : (milpOf E vs ts).solves a = true) {k : Nat} (hk : k < vs.length)
    {ns : List Nat} (T : (milpOf E vs ts).Tour a k ns) (h : Heap) :
    ∃ h', decodeRoute E vs ts a k vs[k] h = (.ok h.core.nRoute, h') ∧
      NewRoute E h h' vs[k] ((0 :: ns).map (nodeVisit E ts a k vs[k]) ++ [homeVisit E vs[k]]) := by
  refine decodeRoute_tour h H.vehicles (by rw [H.pos_zero]; exact H.places)
    (by rw [H.pos_zero]; exact H.origin _ (List.getElem_mem hk)) H.metric H.loading hs hk (H.back hs hk T) T

/-- The paths of the vehicles and the routes built from them. -/
theorem Readable.run (H : Readable E vs ts o) (hs : (milpOf E vs ts).solves a = true)
    (h0 : ∀ k < vs.length, ¬ (milpOf E vs ts).Uses a k 0 0) (h : Heap) :
    ∃ (ns : Nat → List Nat) (h' : Heap), (∀ k < vs.length, (milpOf E vs ts).Tour a k (ns k)) ∧
      milpOptimize E vs ts a h = (.ok (List.range' h.core.nRoute vs.length), h') ∧ Below h h' ∧
      ∀ k (hk : k < vs.length), Made h' (h.core.nRoute + k) vs[k]
        ((0 :: ns k).map (nodeVisit E ts a k vs[k]) ++ [homeVisit E vs[k]]) := by
  have hex : ∀ k, ∃ ns, k < vs.length → (milpOf E vs ts).Tour a k ns := by
    intro k
    by_cases hk : k < vs.length
    · obtain ⟨ns, T⟩ := H.tour hs hk (h0 k hk)
      exact ⟨ns, fun _ => T⟩
    · exact ⟨[], fun hk' => absurd hk' hk⟩
  choose ns hns using hex
  obtain ⟨h', run, b, _, made⟩ := milpOptimize_run
    (vis := fun veh k => (0 :: ns k).map (nodeVisit E ts a k veh) ++ [homeVisit E veh]) h hs
    fun k hk h => H.decode hs hk (hns k hk) h
  exact ⟨ns, h', hns, run, b, made⟩

/-- One route for each vehicle, built beside the existing objects, which visits the nodes of the path of the vehicle in
their order at the times of the solution and serves the trips there. Missing from the full property: trips that share a
place with each other or with the depot (`C76_shared_destination_crashes`, `C76_shared_origin_lost`), vehicles that start at
different depots (`C76_second_depot_detour`), trips without boarding time, and loops at the depot (see C66). -/
theorem C76_routes_follow_partial (H : Readable E vs ts o) (hs : (milpOf E vs ts).solves a = true)
    (h0 : ∀ k < vs.length, ¬ (milpOf E vs ts).Uses a k 0 0) (h : Heap) :
    ∃ rs h', milpOptimize E vs ts a h = (.ok rs, h') ∧ Below h h' ∧ rs.length = vs.length ∧ rs.Nodup ∧
      (∀ r ∈ rs, h.core.nRoute ≤ r) ∧
      ∀ k (hk : k < vs.length) (hk' : k < rs.length), (∃ ns, Follows E vs ts a k vs[k] h'.core rs[k] ns) ∧
        WellFormed h'.core rs[k] ∧ CachesAgree E h' rs[k] ∧ NoVerdicts h' rs[k] := by
  obtain ⟨ns, h', hns, run, b, made⟩ := H.run hs h0 h
  refine ⟨_, h', run, b, by simp, List.nodup_range' .., ?_, ?_⟩
  · intro r hr
    exact (List.mem_range'_1.1 hr).1
  · intro k hk hk'
    have m := made k hk
    have T := hns k hk
    have e : (List.range' h.core.nRoute vs.length)[k] = h.core.nRoute + k := by simp
    rw [e]
    have hp := T.path
    have hmem := T.mem
    rw [milpOf_n] at hp hmem
    exact ⟨⟨ns k, m.vehicle, hp, hmem, m.itin⟩, m.wf, m.agree, m.verdicts⟩

/-! ## C77 -/

/-- The full property: the routes built from a solution are feasible and serve every trip exactly once. -/
def SolutionsFeasible (E : Env) (vs ts : List Nat) : Prop :=
  ∀ a, (milpOf E vs ts).solves a = true → ∀ h : Heap, ∃ rs h', milpOptimize E vs ts a h = (.ok rs, h') ∧
    (∀ r ∈ rs, FeasibleItinerary E (E.vehicle (h'.core.route r).vehicle) (itinerary h'.core r)) ∧
    (rs.flatMap fun r => (itinerary h'.core r).flatMap Visit.picks).Perm ts ∧
    (rs.flatMap fun r => (itinerary h'.core r).flatMap Visit.drops).Perm ts

/-- The trips picked up and dropped along the nodes. -/
theorem nodes_picks {k veh : Nat} {ns : List Nat} (hn : ts.Nodup) (hns : ns.Nodup) (hin : ∀ i ∈ ns, 1 ≤ i ∧ i ≤ 2 * ts.length) :
    ((((0 :: ns).map (nodeVisit E ts a k veh) ++ [homeVisit E veh]).flatMap Visit.picks).Nodup ∧
      ∀ t, t ∈ ((0 :: ns).map (nodeVisit E ts a k veh) ++ [homeVisit E veh]).flatMap Visit.picks ↔
        ∃ n < ts.length, n + 1 ∈ ns ∧ t = ts.getD n 0) ∧
    (((0 :: ns).map (nodeVisit E ts a k veh) ++ [homeVisit E veh]).flatMap Visit.drops).Nodup ∧
      ∀ t, t ∈ ((0 :: ns).map (nodeVisit E ts a k veh) ++ [homeVisit E veh]).flatMap Visit.drops ↔
        ∃ n < ts.length, ts.length + (n + 1) ∈ ns ∧ t = ts.getD n 0 := by
  have hz : (0 :: ns).Nodup := List.nodup_cons.2 ⟨fun h => by have := hin 0 h; omega, hns⟩
  have e1 : ((0 :: ns).map (nodeVisit E ts a k veh) ++ [homeVisit E veh]).flatMap Visit.picks =
      (0 :: ns).flatMap fun i => (nodeVisit E ts a k veh i).picks := by
    simp [List.flatMap_append, List.flatMap_map, homeVisit]
  have e2 : ((0 :: ns).map (nodeVisit E ts a k veh) ++ [homeVisit E veh]).flatMap Visit.drops =
      (0 :: ns).flatMap fun i => (nodeVisit E ts a k veh i).drops := by
    simp [List.flatMap_append, List.flatMap_map, homeVisit]
  rw [e1, e2]
  refine ⟨⟨List.nodup_flatMap.2 ⟨fun i _ => ?_, hz.imp ?_⟩, fun t => ?_⟩, List.nodup_flatMap.2 ⟨fun i _ => ?_, hz.imp ?_⟩, fun t => ?_⟩
  · unfold nodeVisit; simp only; split <;> simp
  · intro i j hij t h1 h2
    obtain ⟨n, hn1, rfl, rfl⟩ := mem_picks h1
    obtain ⟨m, hm1, rfl, e⟩ := mem_picks h2
    exact hij (by rw [getD_inj hn hn1 hm1 e])
  · rw [List.mem_flatMap]
    constructor
    · rintro ⟨i, hi, ht⟩
      obtain ⟨n, hn1, rfl, rfl⟩ := mem_picks ht
      exact ⟨n, hn1, by simpa using hi, rfl⟩
    · rintro ⟨n, hn1, hi, rfl⟩
      refine ⟨n + 1, List.mem_cons_of_mem _ hi, ?_⟩
      unfold nodeVisit
      simp only
      rw [if_pos ⟨by omega, by omega⟩]
      simp
  · unfold nodeVisit; simp only; split <;> simp
  · intro i j hij t h1 h2
    obtain ⟨n, hn1, rfl, rfl⟩ := mem_drops h1
    obtain ⟨m, hm1, rfl, e⟩ := mem_drops h2
    exact hij (by rw [getD_inj hn hn1 hm1 e])
  · rw [List.mem_flatMap]
    constructor
    · rintro ⟨i, hi, ht⟩
      obtain ⟨n, hn1, rfl, rfl⟩ := mem_drops ht
      refine ⟨n, hn1, ?_, rfl⟩
      rcases List.mem_cons.1 hi with h | h
      · omega
      · exact h
    · rintro ⟨n, hn1, hi, rfl⟩
      refine ⟨ts.length + (n + 1), List.mem_cons_of_mem _ hi, ?_⟩
      unfold nodeVisit
      simp only
      rw [if_pos ⟨by omega, by omega⟩]
      simp

/-- Lists of different trips, each trip in one of them. -/
theorem perm_of_parts (hn : ts.Nodup) (m : Nat) (f : Nat → List Nat) (g : Nat → Nat → Prop)
    (h1 : ∀ k < m, (f k).Nodup) (h2 : ∀ k < m, ∀ t, t ∈ f k ↔ ∃ n < ts.length, g k n ∧ t = ts.getD n 0)
    (h3 : ∀ n < ts.length, ∃ k < m, g k n ∧ ∀ k' < m, k' ≠ k → ¬ g k' n) : ((List.range m).flatMap f).Perm ts := by
  refine (List.perm_ext_iff_of_nodup (List.nodup_flatMap.2 ⟨fun k hk => h1 k (List.mem_range.1 hk), ?_⟩) hn).2 fun t => ?_
  · refine List.Pairwise.imp_of_mem ?_ List.nodup_range
    intro k k' hk hk' hne t ht ht'
    obtain ⟨n, hn1, g1, rfl⟩ := (h2 k (List.mem_range.1 hk) t).1 ht
    obtain ⟨n', hn2, g2, e⟩ := (h2 k' (List.mem_range.1 hk') _).1 ht'
    have := getD_inj hn hn1 hn2 e
    subst this
    obtain ⟨k0, _, _, hu⟩ := h3 n hn1
    have e1 : k = k0 := by by_contra h; exact hu k (List.mem_range.1 hk) h g1
    have e2 : k' = k0 := by by_contra h; exact hu k' (List.mem_range.1 hk') h g2
    exact hne (e1.trans e2.symm)
  · rw [List.mem_flatMap]
    constructor
    · rintro ⟨k, hk, ht⟩
      obtain ⟨n, hn1, _, rfl⟩ := (h2 k (List.mem_range.1 hk) t).1 ht
      rw [List.getD_eq_getElem?_getD, List.getElem?_eq_getElem hn1]
      exact List.getElem_mem hn1
    · intro ht
      obtain ⟨n, hn1, rfl⟩ := List.getElem_of_mem ht
      obtain ⟨k, hk, g1, _⟩ := h3 n hn1
      refine ⟨k, List.mem_range.2 hk, (h2 k hk _).2 ⟨n, hn1, g1, ?_⟩⟩
      rw [List.getD_eq_getElem?_getD, List.getElem?_eq_getElem hn1]
      rfl

/-- Every trip is picked up once and dropped once. -/
theorem Readable.served (H : Readable E vs ts o) (hs : (milpOf E vs ts).solves a = true) {ns : Nat → List Nat} {h h' : Heap}
    (hns : ∀ k < vs.length, (milpOf E vs ts).Tour a k (ns k))
    (made : ∀ k (hk : k < vs.length), Made h' (h.core.nRoute + k) vs[k]
      ((0 :: ns k).map (nodeVisit E ts a k vs[k]) ++ [homeVisit E vs[k]])) :
    ((List.range' h.core.nRoute vs.length).flatMap fun r => (itinerary h'.core r).flatMap Visit.picks).Perm ts ∧
    ((List.range' h.core.nRoute vs.length).flatMap fun r => (itinerary h'.core r).flatMap Visit.drops).Perm ts := by
  have hn := nodup_of_distinct H.places
  have once := Milp.C57_served_once (milpOf_vehicles H.vehicles) hs
  have hm : (milpOf E vs ts).m = vs.length := by simp [milpOf, Milp.m]
  have hP : (milpOf E vs ts).n = ts.length := milpOf_n
  have hrange : List.range' h.core.nRoute vs.length = (List.range vs.length).map (h.core.nRoute + ·) := by
    rw [List.range_eq_range', List.map_add_range', Nat.add_zero]
  have parts : ∀ k (hk : k < vs.length), _ := fun k hk => nodes_picks (E := E) (a := a) (k := k) (veh := vs[k]) hn
    (by have := (hns k hk).path.nodup; exact (List.nodup_append.1 (List.nodup_cons.1 this).2).1)
    (by have := (hns k hk).inner; rwa [hP] at this)
  have uses : ∀ k, k < vs.length → ∀ i, 1 ≤ i → i ≤ 2 * ts.length → (i ∈ ns k ↔ ∃ j, (milpOf E vs ts).Uses a k i j) := by
    intro k hk
    have := (hns k hk).mem
    rwa [hP] at this
  refine ⟨?_, ?_⟩
  · rw [hrange, List.flatMap_map]
    refine perm_of_parts hn vs.length _ (fun k n => n + 1 ∈ ns k) ?_ ?_ ?_
    · intro k hk; rw [(made k hk).itin]; exact (parts k hk).1.1
    · intro k hk; rw [(made k hk).itin]; exact (parts k hk).1.2
    · intro n hn1
      obtain ⟨k, hk, v1, _, v3⟩ := once.trips n (by rw [hP]; exact hn1)
      rw [hm] at hk v3
      refine ⟨k, hk, (uses k hk _ (by omega) (by omega)).2 v1.1.exists, fun k' hk' hne hi => ?_⟩
      obtain ⟨j, hj⟩ := (uses k' hk' _ (by omega) (by omega)).1 hi
      exact (v3 k' hk' hne).1.1 j hj
  · rw [hrange, List.flatMap_map]
    refine perm_of_parts hn vs.length _ (fun k n => ts.length + (n + 1) ∈ ns k) ?_ ?_ ?_
    · intro k hk; rw [(made k hk).itin]; exact (parts k hk).2.1
    · intro k hk; rw [(made k hk).itin]; exact (parts k hk).2.2
    · intro n hn1
      obtain ⟨k, hk, _, v2, v3⟩ := once.trips n (by rw [hP]; exact hn1)
      rw [hm] at hk v3
      rw [hP] at v2 v3
      refine ⟨k, hk, (uses k hk _ (by omega) (by omega)).2 v2.1.exists, fun k' hk' hne hi => ?_⟩
      obtain ⟨j, hj⟩ := (uses k' hk' _ (by omega) (by omega)).1 hi
      exact (v3 k' hk' hne).2.1 j hj

/-- The routes of a solution meet the routing constraints and serve every trip exactly once. Missing from the full
property: see `C76_routes_follow_partial`; moreover vehicles that are not available at the times of the solution
(`C77_vehicle_hours_ignored`), that end at different depots, and trips that take longer to leave than to board the vehicle
(`C77_slow_destination_infeasible`). -/
theorem C77_routes_feasible_partial (H : Modelled E vs ts a o d) (hs : (milpOf E vs ts).solves a = true)
    (h0 : ∀ k < vs.length, ¬ (milpOf E vs ts).Uses a k 0 0) (h : Heap) :
    ∃ rs h', milpOptimize E vs ts a h = (.ok rs, h') ∧
      (∀ r ∈ rs, FeasibleItinerary E (E.vehicle (h'.core.route r).vehicle) (itinerary h'.core r)) ∧
      (rs.flatMap fun r => (itinerary h'.core r).flatMap Visit.picks).Perm ts ∧
      (rs.flatMap fun r => (itinerary h'.core r).flatMap Visit.drops).Perm ts := by
  obtain ⟨ns, h', hns, run, b, made⟩ := H.run hs h0 h
  refine ⟨_, h', run, ?_, H.served hs hns made⟩
  intro r hr
  obtain ⟨k, hk, rfl⟩ := List.getElem_of_mem hr
  have hk' : k < vs.length := by simpa using hk
  have e : (List.range' h.core.nRoute vs.length)[k] = h.core.nRoute + k := by simp
  rw [e, (made k hk').vehicle, (made k hk').itin]
  exact tour_feasible H hs hk' (hns k hk')

/-- The check of the code accepts each of these routes. Missing: see `C77_routes_feasible_partial`. -/
theorem C77_accepted_by_check_partial (hE : EnvOK E) (H : Modelled E vs ts a o d) (hs : (milpOf E vs ts).solves a = true)
    (h0 : ∀ k < vs.length, ¬ (milpOf E vs ts).Uses a k 0 0) (h : Heap) :
    ∃ rs h', milpOptimize E vs ts a h = (.ok rs, h') ∧ rs.length = vs.length ∧
      ∀ r ∈ rs, ∃ h'', routeFeasible E r h' = (.ok true, h'') := by
  obtain ⟨ns, h', hns, run, b, made⟩ := H.run hs h0 h
  refine ⟨_, h', run, by simp, ?_⟩
  intro r hr
  obtain ⟨k, hk, rfl⟩ := List.getElem_of_mem hr
  have hk' : k < vs.length := by simpa using hk
  have e : (List.range' h.core.nRoute vs.length)[k] = h.core.nRoute + k := by simp
  rw [e]
  have m := made k hk'
  obtain ⟨x, h'', e1, e2, _⟩ := C18_feasible_iff_constraints hE h' (h.core.nRoute + k) m.wf m.agree m.verdicts
  rw [m.vehicle, m.itin] at e2
  rw [e2.2 (tour_feasible H hs hk' (hns k hk'))] at e1
  exact ⟨h'', e1⟩

/-! ## Cases -/

/-- The environment of an instance: vehicles and trips numbered in order. -/
def Milp.env (P : Milp) : Env where
  metric := P.metric
  trip i := P.trips.getD i ⟨⟨[0], 0, .fin 0, 0⟩, ⟨[0], 0, .fin 0, 0⟩, 0, 0, .inf⟩
  vehicle i := P.vehicles.getD i ⟨⟨[0], 0, .inf, 0⟩, none, 2, .fin 100⟩

open Milp

theorem demo_modelled (a : Assignment) (ha : ∀ k < 2, 0 ≤ a.u k 0) : Modelled demo.env [0, 1] [0, 1] a [0] [0] where
  vehicles := by decide
  places := by unfold DistinctPlaces; decide +kernel
  origin := by decide +kernel
  far := by decide +kernel
  closes := by
    intro t ht
    simp only [List.mem_cons, List.not_mem_nil, or_false] at ht
    rcases ht with rfl | rfl <;> exact ⟨_, rfl⟩
  metric p q := abs_nonneg _
  loading := by decide +kernel
  destination := by decide +kernel
  here p := by simp [env, demo, lineMetric]
  unloading := by decide +kernel
  depots k hk := by
    have hk : k < 2 := hk
    rcases (show k = 0 ∨ k = 1 by omega) with rfl | rfl
    · exact ⟨ha 0 (by decide), rfl⟩
    · exact ⟨ha 1 (by decide), rfl⟩

theorem demo_no_loop (k : Nat) : ¬ (milpOf demo.env [0, 1] [0, 1]).Uses demoTwo k 0 0 := by
  rintro ⟨_, _, hx⟩
  have : demoTwo.x k 0 0 = 0 := by simp [demoTwo, ofTables]
  rw [this] at hx
  exact absurd hx (by decide +kernel)

example (h : Heap) : ∃ rs h', milpOptimize demo.env [0, 1] [0, 1] demoTwo h = (.ok rs, h') ∧ Below h h' ∧ rs.length = 2 ∧ rs.Nodup ∧
      (∀ r ∈ rs, h.core.nRoute ≤ r) ∧
      ∀ k (hk : k < 2) (hk' : k < rs.length), (∃ ns, Follows demo.env [0, 1] [0, 1] demoTwo k [0, 1][k] h'.core rs[k] ns) ∧
        WellFormed h'.core rs[k] ∧ CachesAgree demo.env h' rs[k] ∧ NoVerdicts h' rs[k] :=
  C76_routes_follow_partial (demo_modelled demoTwo (by decide +kernel)).toReadable demo_solved.2 (fun k _ => demo_no_loop k) h

example (h : Heap) := C77_routes_feasible_partial (demo_modelled demoTwo (by decide +kernel)) demo_solved.2 (fun k _ => demo_no_loop k) h

theorem demo_envOK : EnvOK demo.env where
  metric p q := abs_nonneg _
  originDuration := by
    intro t
    rcases t with _ | _ | t
    · decide +kernel
    · decide +kernel
    · exact le_refl _
  destinationDuration := by
    intro t
    rcases t with _ | _ | t
    · decide +kernel
    · decide +kernel
    · exact le_refl _
  capacity := by
    intro t
    rcases t with _ | _ | t
    · decide +kernel
    · decide +kernel
    · exact le_refl _

example (h : Heap) := C77_accepted_by_check_partial demo_envOK (demo_modelled demoTwo (by decide +kernel)) demo_solved.2
  (fun k _ => demo_no_loop k) h

/-- The routes of that case: each vehicle serves a trip. -/
example : (milpOptimize demo.env [0, 1] [0, 1] demoTwo .empty).1 = .ok [0, 1] ∧
    itinerary (milpOptimize demo.env [0, 1] [0, 1] demoTwo .empty).2.core 1 =
      [⟨[0], some 0, [], []⟩, ⟨[3], some 5, [1], []⟩, ⟨[4], some 7, [], [1]⟩, ⟨[0], none, [], []⟩] := by
  constructor <;> decide +kernel

/-- One vehicle and two trips to the same place. -/
def sharedGoal : Milp where
  vehicles := [⟨⟨[0], 0, .inf, 0⟩, none, 2, .fin 100⟩]
  trips := [⟨⟨[1], 0, .fin 50, 1⟩, ⟨[3], 0, .fin 60, 1⟩, 1, 0, .fin 30⟩, ⟨⟨[2], 0, .fin 50, 1⟩, ⟨[3], 0, .fin 60, 1⟩, 1, 0, .fin 30⟩]
  metric := lineMetric

/-- Both trips are picked up and then delivered one after the other. -/
def sharedGoalSolution : Assignment := ofTables [(0, 0, 1), (0, 1, 2), (0, 2, 3), (0, 3, 4), (0, 4, 5)]
  [[0, 1, 3, 5, 6, 10]] [[0, 1, 2, 1, 0, 0]]

/-- Two deliveries in a row at one place become one stop, and there is none left for the second trip: `IndexError`. -/
theorem C76_shared_destination_crashes : (milpOf sharedGoal.env [0] [0, 1]).solves sharedGoalSolution = true ∧
    (milpOptimize sharedGoal.env [0] [0, 1] sharedGoalSolution .empty).1 = .error .indexError ∧
    ¬ FollowsSolutions sharedGoal.env [0] [0, 1] := by
  have hs : (milpOf sharedGoal.env [0] [0, 1]).solves sharedGoalSolution = true := by decide +kernel
  have hr : (milpOptimize sharedGoal.env [0] [0, 1] sharedGoalSolution .empty).1 = .error .indexError := by decide +kernel
  refine ⟨hs, hr, fun H => ?_⟩
  obtain ⟨rs, h', run, _⟩ := H _ hs .empty
  rw [run] at hr
  exact absurd hr (by simp)

/-- The second of two trips with one origin is in no route. -/
theorem C76_shared_origin_lost : (milpOf sharedOrigin.env [0] [0, 1]).solves sharedSolution = true ∧
    (milpOptimize sharedOrigin.env [0] [0, 1] sharedSolution .empty).1 = .ok [0] ∧
    (itinerary (milpOptimize sharedOrigin.env [0] [0, 1] sharedSolution .empty).2.core 0).flatMap Visit.picks = [0] ∧
    ¬ SolutionsFeasible sharedOrigin.env [0] [0, 1] := by
  have hs : (milpOf sharedOrigin.env [0] [0, 1]).solves sharedSolution = true := by decide +kernel
  have hr : (milpOptimize sharedOrigin.env [0] [0, 1] sharedSolution .empty).1 = .ok [0] := by decide +kernel
  have hi : (itinerary (milpOptimize sharedOrigin.env [0] [0, 1] sharedSolution .empty).2.core 0).flatMap Visit.picks = [0] := by
    decide +kernel
  refine ⟨hs, hr, hi, fun H => ?_⟩
  obtain ⟨rs, h', run, _, p, _⟩ := H _ hs .empty
  rw [run] at hr hi
  simp only [Except.ok.injEq] at hr
  subst hr
  simp only [List.flatMap_cons, List.flatMap_nil, List.append_nil] at p
  rw [hi] at p
  exact absurd p.length_eq (by decide)

/-- The vehicles of `demo`, the second of which starts at another place. -/
def twoDepots (p : Pos) : Milp where
  vehicles := [⟨⟨[0], 0, .inf, 0⟩, none, 2, .fin 100⟩, ⟨⟨p, 0, .inf, 0⟩, none, 2, .fin 100⟩]
  trips := demo.trips
  metric := lineMetric

/-- Only the depot of the first vehicle has a node, so that the time of the first stop of the second vehicle cannot be found:
`ValueError`. -/
theorem C76_second_depot_crashes : (milpOf (twoDepots [9]).env [0, 1] [0, 1]).solves demoTwo = true ∧
    (milpOptimize (twoDepots [9]).env [0, 1] [0, 1] demoTwo .empty).1 = .error .valueError ∧
    ¬ FollowsSolutions (twoDepots [9]).env [0, 1] [0, 1] := by
  have hs : (milpOf (twoDepots [9]).env [0, 1] [0, 1]).solves demoTwo = true := by decide +kernel
  have hr : (milpOptimize (twoDepots [9]).env [0, 1] [0, 1] demoTwo .empty).1 = .error .valueError := by decide +kernel
  refine ⟨hs, hr, fun H => ?_⟩
  obtain ⟨rs, h', run, _⟩ := H _ hs .empty
  rw [run] at hr
  exact absurd hr (by simp)

/-- If the second depot is the origin of a trip, the second vehicle drives through the depot of the first one. -/
theorem C76_second_depot_detour : (milpOf (twoDepots [1]).env [0, 1] [0, 1]).solves demoTwo = true ∧
    (milpOptimize (twoDepots [1]).env [0, 1] [0, 1] demoTwo .empty).1 = .ok [0, 1] ∧
    (itinerary (milpOptimize (twoDepots [1]).env [0, 1] [0, 1] demoTwo .empty).2.core 1).map Visit.pos = [[1], [0], [3], [4], [1]] ∧
    ¬ FollowsSolutions (twoDepots [1]).env [0, 1] [0, 1] := by
  have hs : (milpOf (twoDepots [1]).env [0, 1] [0, 1]).solves demoTwo = true := by decide +kernel
  have hr : (milpOptimize (twoDepots [1]).env [0, 1] [0, 1] demoTwo .empty).1 = .ok [0, 1] := by decide +kernel
  have hi : (itinerary (milpOptimize (twoDepots [1]).env [0, 1] [0, 1] demoTwo .empty).2.core 1).map Visit.pos =
      [[1], [0], [3], [4], [1]] := by decide +kernel
  have hq : (itinerary (milpOptimize (twoDepots [1]).env [0, 1] [0, 1] demoTwo .empty).2.core 1)[1]?.map
      (fun v => (v.picks, v.drops)) = some ([], []) := by decide +kernel
  refine ⟨hs, hr, hi, fun H => ?_⟩
  obtain ⟨rs, h', run, _, follows⟩ := H _ hs .empty
  rw [run] at hr hi hq
  simp only [Except.ok.injEq] at hr
  subst hr
  obtain ⟨ns, F⟩ := follows 1 (by decide) (by decide)
  have hF := F.itin
  simp only [List.getElem_cons_succ, List.getElem_cons_zero] at hF
  rw [hF] at hi hq
  cases ns with
  | nil => simp [nodeVisit, homeVisit] at hi
  | cons i ns =>
    have hin := F.path.nodup
    have harc := (List.isChain_cons_cons.1 F.path.arcs).1
    simp only [List.map_cons, List.cons_append, List.getElem?_cons_succ, List.getElem?_cons_zero, Option.map_some,
      Option.some.injEq, Prod.mk.injEq] at hq
    obtain ⟨_, hi2, _⟩ := harc
    rw [milpOf_n] at hi2
    have h0 : i ≠ 0 := fun e => by subst e; simp at hin
    have h5 : i ≠ 5 := fun e => by subst e; simp at hin
    simp only [List.length_cons, List.length_nil] at hi2
    have : i = 1 ∨ i = 2 ∨ i = 3 ∨ i = 4 := by omega
    rcases this with rfl | rfl | rfl | rfl <;> simp [nodeVisit] at hq

/-- A vehicle that starts working at time 100, and a trip that must start before time 50. -/
def lateVehicle : Milp where
  vehicles := [⟨⟨[0], 100, .inf, 0⟩, none, 2, .fin 100⟩]
  trips := [⟨⟨[1], 0, .fin 50, 1⟩, ⟨[2], 0, .fin 60, 1⟩, 1, 0, .fin 30⟩]
  metric := lineMetric

def lateSolution : Assignment := ofTables [(0, 0, 1), (0, 1, 2), (0, 2, 3)] [[0, 1, 3, 6]] [[0, 1, 0, 0]]

/-- The times at which the vehicles are available are not in the model. -/
theorem C77_vehicle_hours_ignored : (milpOf lateVehicle.env [0] [0]).solves lateSolution = true ∧
    ¬ SolutionsFeasible lateVehicle.env [0] [0] := by
  have hs : (milpOf lateVehicle.env [0] [0]).solves lateSolution = true := by decide +kernel
  have hr : (milpOptimize lateVehicle.env [0] [0] lateSolution .empty).1 = .ok [0] := by decide +kernel
  have hi : itinerary (milpOptimize lateVehicle.env [0] [0] lateSolution .empty).2.core 0 =
      [⟨[0], some 0, [], []⟩, ⟨[1], some 1, [0], []⟩, ⟨[2], some 3, [], [0]⟩, ⟨[0], none, [], []⟩] := by decide +kernel
  have hv : ((milpOptimize lateVehicle.env [0] [0] lateSolution .empty).2.core.route 0).vehicle = 0 := by decide +kernel
  refine ⟨hs, fun H => ?_⟩
  obtain ⟨rs, h', run, feas, _⟩ := H _ hs .empty
  rw [run] at hr hi hv
  simp only [Except.ok.injEq] at hr
  subst hr
  have F := feas 0 (by simp)
  rw [hi, hv] at F
  have := (F.trips 1 2 _ _ _ _ _ _ 0 rfl rfl rfl rfl rfl rfl (by decide) (by decide)).pickLatest
  revert this
  decide +kernel

/-- A vehicle that works for four time units, and a trip whose passenger needs five time units to leave it. -/
def slowShift : Milp where
  vehicles := [⟨⟨[0], 0, .inf, 0⟩, none, 2, .fin 4⟩]
  trips := slowDestination.trips
  metric := lineMetric

/-- The time spent at destinations is not in the model. -/
theorem C77_slow_destination_infeasible : (milpOf slowShift.env [0] [0]).solves slowSolution = true ∧
    ¬ SolutionsFeasible slowShift.env [0] [0] := by
  have hs : (milpOf slowShift.env [0] [0]).solves slowSolution = true := by decide +kernel
  have hr : (milpOptimize slowShift.env [0] [0] slowSolution .empty).1 = .ok [0] := by decide +kernel
  have hi : itinerary (milpOptimize slowShift.env [0] [0] slowSolution .empty).2.core 0 =
      [⟨[0], some 0, [], []⟩, ⟨[1], some 1, [0], []⟩, ⟨[2], some 2, [], [0]⟩, ⟨[0], none, [], []⟩] := by decide +kernel
  have hv : ((milpOptimize slowShift.env [0] [0] slowSolution .empty).2.core.route 0).vehicle = 0 := by decide +kernel
  refine ⟨hs, fun H => ?_⟩
  obtain ⟨rs, h', run, feas, _⟩ := H _ hs .empty
  rw [run] at hr hi hv
  simp only [Except.ok.injEq] at hr
  subst hr
  have F := feas 0 (by simp)
  rw [hi, hv] at F
  have := F.vehicle.duration _ rfl _ rfl
  revert this
  decide +kernel

end Jinete
