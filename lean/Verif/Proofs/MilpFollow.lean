import Verif.Proofs.MilpRoute
import Verif.Proofs.MilpVisit
import Verif.Spec.MilpRoutes

/-!
# The route of one vehicle of a solution
-/

set_option autoImplicit false

namespace Jinete

variable {E : Env} {vs ts : List Nat} {a : Assignment}

theorem milpOf_n : (milpOf E vs ts).n = ts.length := by simp [milpOf, Milp.n]

theorem milpOf_trip {t : Nat} (ht : t < ts.length) (ht' : t < (milpOf E vs ts).trips.length) :
    (milpOf E vs ts).trips[t] = E.trip (ts.getD t 0) := by
  simp [milpOf, List.getD_eq_getElem?_getD, ht]

/-- The positions without the destination depot. -/
theorem milpOf_positions {v : Nat} {vs' : List Nat} (hvs : vs = v :: vs') : (milpOf E vs ts).positions =
    ((E.vehicle v).origin.position :: (ts.map (fun t => (E.trip t).origin.position) ++
      ts.map fun t => (E.trip t).destination.position)) ++ [(E.vehicle v).destination.position] := by
  subst hvs
  simp [milpOf, Milp.positions, Function.comp_def]

theorem milpOf_vehicles (h : vs ≠ []) : (milpOf E vs ts).vehicles ≠ [] := by
  intro e
  exact h (by simpa [milpOf] using e)

/-- The nodes of the model are at the places of the specification. -/
theorem milpOf_pos (hvs : vs ≠ []) {veh i : Nat} (hi : i < 2 * ts.length + 1)
    (ho : (E.vehicle veh).origin.position = (milpOf E vs ts).pos 0) : (milpOf E vs ts).pos i = nodePlace E ts veh i := by
  have hv := milpOf_vehicles (E := E) (ts := ts) hvs
  unfold nodePlace
  by_cases h0 : i = 0
  · rw [if_pos h0, h0, ho]
  · rw [if_neg h0]
    by_cases h1 : i ≤ ts.length
    · rw [if_pos h1]
      obtain ⟨t, rfl⟩ : ∃ t, i = t + 1 := ⟨i - 1, by omega⟩
      have ht : t < (milpOf E vs ts).n := by rw [milpOf_n]; omega
      rw [Milp.pos_pickup hv ht, milpOf_trip (by omega), Nat.add_sub_cancel]
    · rw [if_neg h1, if_pos (by omega)]
      obtain ⟨t, rfl⟩ : ∃ t, i = ts.length + (t + 1) := ⟨i - ts.length - 1, by omega⟩
      have ht : t < (milpOf E vs ts).n := by rw [milpOf_n]; omega
      have := Milp.pos_delivery hv ht
      rw [milpOf_n] at this
      rw [this, milpOf_trip (by omega)]
      have e : ts.length + (t + 1) - ts.length - 1 = t := by omega
      rw [e]

theorem idxOf_pos (hvs : vs ≠ []) (hD : DistinctPlaces E ((milpOf E vs ts).pos 0) ts) {i : Nat} (hi : i < 2 * ts.length + 1) :
    (milpOf E vs ts).positions.idxOf ((milpOf E vs ts).pos i) = i ∧ (milpOf E vs ts).pos i ∈ (milpOf E vs ts).positions := by
  obtain ⟨v, vs', hvs'⟩ := List.exists_cons_of_ne_nil hvs
  have hp := milpOf_positions (E := E) (ts := ts) hvs'
  set D := (E.vehicle v).origin.position :: (ts.map (fun t => (E.trip t).origin.position) ++
      ts.map fun t => (E.trip t).destination.position) with hDe
  have h0 : (milpOf E vs ts).pos 0 = (E.vehicle v).origin.position := by
    unfold Milp.pos; rw [hp, hDe]; rfl
  have hDn : D.Nodup := by unfold DistinctPlaces at hD; rw [h0] at hD; exact hD
  have hlen : i < D.length := by simp [hDe]; omega
  have e : (milpOf E vs ts).pos i = D[i] := by
    unfold Milp.pos
    rw [hp, List.getD_eq_getElem?_getD, List.getElem?_append_left hlen]
    simp [hlen]
  have hm : D[i] ∈ D := List.getElem_mem hlen
  refine ⟨?_, ?_⟩
  · rw [hp, e, List.idxOf_append_of_mem hm]; exact hDn.idxOf_getElem i hlen
  · rw [hp, e]; exact List.mem_append_left _ hm

theorem pos_inj (hvs : vs ≠ []) (hD : DistinctPlaces E ((milpOf E vs ts).pos 0) ts) {i j : Nat} (hi : i < 2 * ts.length + 1)
    (hj : j < 2 * ts.length + 1) (e : (milpOf E vs ts).pos i = (milpOf E vs ts).pos j) : i = j := by
  have h1 := (idxOf_pos hvs hD hi).1
  have h2 := (idxOf_pos hvs hD hj).1
  rw [e] at h1
  omega

theorem getD_origin (hvs : vs ≠ []) {t : Nat} (ht : t < ts.length) :
    (E.trip (ts.getD t 0)).origin.position = (milpOf E vs ts).pos (t + 1) := by
  have ht' : t < (milpOf E vs ts).n := by rw [milpOf_n]; exact ht
  rw [Milp.pos_pickup (milpOf_vehicles hvs) ht', milpOf_trip ht]

theorem getD_destination (hvs : vs ≠ []) {t : Nat} (ht : t < ts.length) :
    (E.trip (ts.getD t 0)).destination.position = (milpOf E vs ts).pos (ts.length + (t + 1)) := by
  have ht' : t < (milpOf E vs ts).n := by rw [milpOf_n]; exact ht
  have := Milp.pos_delivery (milpOf_vehicles hvs) ht'
  rw [milpOf_n] at this
  rw [this, milpOf_trip ht]

/-- The trips found at a list of places. -/
theorem mem_tripsAt (hvs : vs ≠ []) (hD : DistinctPlaces E ((milpOf E vs ts).pos 0) ts) {l : List Nat}
    (hl : ∀ i ∈ l, i < 2 * ts.length + 1) {t : Nat} :
    t ∈ (milpOf E vs ts).tripsOfPositions (l.map (milpOf E vs ts).pos) ↔ t < ts.length ∧ t + 1 ∈ l := by
  rw [Milp.mem_tripsOfPositions]
  constructor
  · rintro ⟨p, hp, h⟩
    obtain ⟨i, hi, rfl⟩ := List.mem_map.1 hp
    obtain ⟨ht, e⟩ := Milp.firstTripAt_some h
    have ht' : t < ts.length := by rw [milpOf_n] at ht; exact ht
    refine ⟨ht', ?_⟩
    rw [← Milp.pos_pickup (milpOf_vehicles hvs) ht] at e
    have := pos_inj hvs hD (by omega) (hl i hi) e
    rw [this]; exact hi
  · rintro ⟨ht, hm⟩
    have ht' : t < (milpOf E vs ts).n := by rw [milpOf_n]; exact ht
    refine ⟨(milpOf E vs ts).pos (t + 1), List.mem_map_of_mem hm, ?_⟩
    obtain ⟨t', e⟩ := Milp.firstTripAt_isSome ht'
    rw [Milp.pos_pickup (milpOf_vehicles hvs) ht', e]
    obtain ⟨ht2, e2⟩ := Milp.firstTripAt_some e
    have ht3 : t' < ts.length := by rw [milpOf_n] at ht2; exact ht2
    rw [← Milp.pos_pickup (milpOf_vehicles hvs) ht', ← Milp.pos_pickup (milpOf_vehicles hvs) ht2] at e2
    have := pos_inj hvs hD (by omega) (by omega) e2
    congr 1; omega

theorem tripEnds_getD (l : List Nat) (hvs : vs ≠ []) (hl : ∀ t ∈ l, t < ts.length) :
    tripEnds E (l.map fun t => ts.getD t 0) =
      (l.flatMap fun t => [t + 1, ts.length + (t + 1)]).map (milpOf E vs ts).pos := by
  unfold tripEnds
  rw [List.flatMap_map, List.map_flatMap]
  refine List.flatMap_congr fun t ht => ?_
  rw [getD_origin hvs (hl t ht), getD_destination hvs (hl t ht)]
  rfl

theorem nodup_ends {n : Nat} {l : List Nat} (hn : l.Nodup) (hl : ∀ t ∈ l, t < n) :
    (l.flatMap fun t => [t + 1, n + (t + 1)]).Nodup := by
  rw [List.nodup_flatMap]
  refine ⟨fun t _ => ?_, ?_⟩
  · have : 0 < n := by have := hl t ‹_›; omega
    simp; omega
  · refine hn.imp_of_mem fun {t t'} h h' hne => ?_
    have h1 := hl t h
    have h2 := hl t' h'
    intro x hx hy
    simp only [List.mem_cons, List.not_mem_nil, or_false] at hx hy
    omega

theorem nodup_map_pos (hvs : vs ≠ []) (hD : DistinctPlaces E ((milpOf E vs ts).pos 0) ts) {l : List Nat} (hn : l.Nodup)
    (hl : ∀ i ∈ l, i < 2 * ts.length + 1) : (l.map (milpOf E vs ts).pos).Nodup :=
  List.Nodup.map_on (fun i hi j hj e => pos_inj hvs hD (hl i hi) (hl j hj) e) hn

theorem filter_single {α : Type} {l : List α} {f : α → Bool} {x : α} (hn : l.Nodup) (hx : x ∈ l) (hf : f x = true)
    (hu : ∀ y ∈ l, f y = true → y = x) : l.filter f = [x] := by
  have h1 : (l.filter f).Nodup := hn.filter _
  have h2 : ∀ y, y ∈ l.filter f ↔ y = x := by
    intro y
    rw [List.mem_filter]
    constructor
    · rintro ⟨h, h'⟩; exact hu y h h'
    · rintro rfl; exact ⟨hx, hf⟩
  cases hl : l.filter f with
  | nil => rw [hl] at h2; exact absurd ((h2 x).2 rfl) (by simp)
  | cons y m =>
    rw [hl] at h1 h2
    have e : y = x := (h2 y).1 (by simp)
    cases m with
    | nil => rw [e]
    | cons z m =>
      have e2 : z = x := (h2 z).1 (by simp)
      rw [e, e2] at h1
      simp at h1

/-- A route built from distinct nodes. -/
theorem decode_nodes {k veh : Nat} {ns : List Nat} {lead : List Pos} (h : Heap) (hvs : vs ≠ [])
    (hD : DistinctPlaces E ((milpOf E vs ts).pos 0) ts) (ho : (E.vehicle veh).origin.position = (milpOf E vs ts).pos 0)
    (hn : ns.Nodup) (hi : ∀ i ∈ ns, 1 ≤ i ∧ i ≤ 2 * ts.length)
    (hpair : ∀ t < ts.length, t + 1 ∈ ns → ∃ A B, ns = A ++ B ∧ t + 1 ∈ A ∧ ts.length + (t + 1) ∈ B)
    (hpair' : ∀ t < ts.length, ts.length + (t + 1) ∈ ns → t + 1 ∈ ns)
    (hvis : (milpOf E vs ts).visitedPositions a k = lead ++ ns.map (milpOf E vs ts).pos)
    (hlead : ∀ p ∈ lead, p = (E.vehicle veh).origin.position) :
    ∃ h', decodeRoute E vs ts a k veh h = (.ok h.core.nRoute, h') ∧
      NewRoute E h h' veh ((0 :: ns).map (nodeVisit E ts a k veh) ++ [homeVisit E veh]) := by
  set P := milpOf E vs ts with hP
  have hlt : ∀ i ∈ ns, i < 2 * ts.length + 1 := fun i h => by have := hi i h; omega
  have hps : (ns.map P.pos).Nodup := nodup_map_pos hvs hD hn hlt
  have h0 : (E.vehicle veh).origin.position ∉ ns.map P.pos := by
    intro hm
    obtain ⟨i, hin, e⟩ := List.mem_map.1 hm
    rw [ho] at e
    have := pos_inj hvs hD (hlt i hin) (by omega) e
    have := hi i hin
    omega
  -- the trips
  set Ti := P.tripsOfPositions (lead ++ ns.map P.pos) with hTi
  have hmem : ∀ t, t ∈ Ti ↔ t < ts.length ∧ t + 1 ∈ ns := by
    intro t
    rw [hTi, Milp.mem_tripsOfPositions]
    have key := mem_tripsAt (t := t) hvs hD hlt
    rw [Milp.mem_tripsOfPositions] at key
    rw [← key]
    constructor
    · rintro ⟨p, hp, e⟩
      rcases List.mem_append.1 hp with hp | hp
      · exfalso
        have := hlead p hp
        rw [this, ho] at e
        obtain ⟨ht, e2⟩ := Milp.firstTripAt_some e
        have ht' : t < ts.length := by rw [hP, milpOf_n] at ht; exact ht
        rw [← Milp.pos_pickup (milpOf_vehicles hvs) ht] at e2
        have := pos_inj hvs hD (by omega) (by omega) e2
        omega
      · exact ⟨p, hp, e⟩
    · rintro ⟨p, hp, e⟩; exact ⟨p, List.mem_append_right _ hp, e⟩
  have hTin : Ti.Nodup := Milp.nodup_tripsOfPositions _
  have hTil : ∀ t ∈ Ti, t < ts.length := fun t ht => ((hmem t).1 ht).1
  set T := Ti.map fun t => ts.getD t 0 with hT
  have hends := tripEnds_getD (E := E) Ti hvs hTil
  rw [← hT, ← hP] at hends
  have hendl : ∀ i ∈ (Ti.flatMap fun t => [t + 1, ts.length + (t + 1)]), i ∈ ns := by
    intro i him
    obtain ⟨t, ht, hit⟩ := List.mem_flatMap.1 him
    obtain ⟨ht1, ht2⟩ := (hmem t).1 ht
    simp only [List.mem_cons, List.not_mem_nil, or_false] at hit
    rcases hit with rfl | rfl
    · exact ht2
    · obtain ⟨A, B, e, _, hB⟩ := hpair t ht1 ht2
      rw [e]; exact List.mem_append_right _ hB
  have hTn : (tripEnds E T).Nodup := by
    rw [hends]
    exact nodup_map_pos hvs hD (nodup_ends hTin hTil) fun i him => hlt i (hendl i him)
  have hsub : ∀ p ∈ tripEnds E T, p ∈ ns.map P.pos := by
    rw [hends]
    intro p hp
    obtain ⟨i, him, rfl⟩ := List.mem_map.1 hp
    exact List.mem_map_of_mem (hendl i him)
  have hpos : ∀ p ∈ (E.vehicle veh).origin.position :: ns.map P.pos, p ∈ P.positions := by
    intro p hp
    rcases List.mem_cons.1 hp with rfl | hp
    · rw [ho]; exact (idxOf_pos hvs hD (by omega)).2
    · obtain ⟨i, him, rfl⟩ := List.mem_map.1 hp
      exact (idxOf_pos hvs hD (hlt i him)).2
  obtain ⟨h', F, run, raw⟩ := buildRoute_raw (P := P) (a := a) (k := k) h (List.nodup_cons.2 ⟨h0, hps⟩) hTn hsub hpos hlead
  have hnew := raw.newRoute hps hTn (by
    intro t ht
    rw [hT] at ht
    obtain ⟨i, hiT, rfl⟩ := List.mem_map.1 ht
    obtain ⟨h1, h2⟩ := (hmem i).1 hiT
    obtain ⟨A, B, e, hA, hB⟩ := hpair i h1 h2
    refine ⟨A.map P.pos, B.map P.pos, by rw [e, List.map_append], ?_, ?_⟩
    · rw [getD_origin hvs h1]; exact List.mem_map_of_mem hA
    · rw [getD_destination hvs h1]; exact List.mem_map_of_mem hB)
  refine ⟨h', ?_, ?_⟩
  · rw [decodeRoute_eq, hvis]; exact run
  · have hTnd : T.Nodup := (tripEnds_inj hTn).of_map _
    have e0 : (⟨(E.vehicle veh).origin.position, some (a.u k (P.positions.idxOf (E.vehicle veh).origin.position)), [], []⟩ : Visit) =
        nodeVisit E ts a k veh 0 := by
      unfold nodeVisit nodePlace
      rw [ho, (idxOf_pos hvs hD (by omega)).1]
      simp
    have ei : ∀ i ∈ ns, visitAt E T (fun p => a.u k (P.positions.idxOf p)) (P.pos i) = nodeVisit E ts a k veh i := by
      intro i him
      obtain ⟨i1, i2⟩ := hi i him
      have hlti := hlt i him
      unfold visitAt nodeVisit
      simp only
      rw [(idxOf_pos hvs hD hlti).1, ← milpOf_pos hvs hlti ho]
      have hT1 : ∀ x ∈ T, ∃ t, t < ts.length ∧ t + 1 ∈ ns ∧ x = ts.getD t 0 := by
        intro x hx
        rw [hT] at hx
        obtain ⟨t, ht, rfl⟩ := List.mem_map.1 hx
        exact ⟨t, ((hmem t).1 ht).1, ((hmem t).1 ht).2, rfl⟩
      congr 1
      · by_cases c : i ≤ ts.length
        · rw [if_pos ⟨i1, c⟩]
          obtain ⟨t, rfl⟩ : ∃ t, i = t + 1 := ⟨i - 1, by omega⟩
          rw [Nat.add_sub_cancel, filter_single (x := ts.getD t 0) hTnd]
          · rfl
          · rw [hT]; exact List.mem_map_of_mem ((hmem t).2 ⟨by omega, him⟩)
          · rw [decide_eq_true_eq, getD_origin hvs (by omega)]
          · intro y hy e
            obtain ⟨t', h1, _, rfl⟩ := hT1 y hy
            rw [decide_eq_true_eq, getD_origin hvs h1] at e
            have := pos_inj hvs hD (by omega) (by omega) e
            congr 1; omega
        · rw [if_neg (by omega)]
          have : (T.filter fun t => decide ((E.trip t).origin.position = P.pos i)) = [] := by
            rw [List.filter_eq_nil_iff]
            intro y hy e
            obtain ⟨t', h1, _, rfl⟩ := hT1 y hy
            rw [decide_eq_true_eq, getD_origin hvs h1] at e
            have := pos_inj hvs hD (by omega) (by omega) e
            omega
          rw [this]; rfl
      · by_cases c : i ≤ ts.length
        · rw [if_neg (by omega)]
          have : (T.filter fun t => decide ((E.trip t).destination.position = P.pos i)) = [] := by
            rw [List.filter_eq_nil_iff]
            intro y hy e
            obtain ⟨t', h1, _, rfl⟩ := hT1 y hy
            rw [decide_eq_true_eq, getD_destination hvs h1] at e
            have := pos_inj hvs hD (by omega) (by omega) e
            omega
          rw [this]; rfl
        · rw [if_pos (by omega)]
          obtain ⟨t, rfl⟩ : ∃ t, i = ts.length + (t + 1) := ⟨i - ts.length - 1, by omega⟩
          have e1 : ts.length + (t + 1) - ts.length - 1 = t := by omega
          rw [e1, filter_single (x := ts.getD t 0) hTnd]
          · rfl
          · rw [hT]; exact List.mem_map_of_mem ((hmem t).2 ⟨by omega, hpair' t (by omega) him⟩)
          · rw [decide_eq_true_eq, getD_destination hvs (by omega)]
          · intro y hy e
            obtain ⟨t', h1, _, rfl⟩ := hT1 y hy
            rw [decide_eq_true_eq, getD_destination hvs h1] at e
            have := pos_inj hvs hD (by omega) (by omega) e
            congr 1; omega
    have : (⟨(E.vehicle veh).origin.position, some (a.u k (P.positions.idxOf (E.vehicle veh).origin.position)), [], []⟩ ::
        (ns.map P.pos).map (visitAt E T fun p => a.u k (P.positions.idxOf p)) ++
        [⟨(E.vehicle veh).destination.position, none, [], []⟩] : List Visit) =
        (0 :: ns).map (nodeVisit E ts a k veh) ++ [homeVisit E veh] := by
      rw [e0, List.map_map, List.map_cons]
      congr 2
      exact List.map_congr_left fun i him => ei i him
    rw [← this]
    exact hnew

/-- The nodes of both ends of a trip on a tour. -/
theorem Milp.Tour.pairs {P : Milp} {k : Nat} {ns : List Nat} (T : P.Tour a k ns) (hv : P.vehicles ≠ [])
    (hm : ∀ p q, 0 ≤ P.metric p q) (hd : ∀ t ∈ P.trips, 0 < t.origin.duration) (h : P.solves a = true) (hk : k < P.m) :
    (∀ t < P.n, t + 1 ∈ ns → ∃ A B, ns = A ++ B ∧ t + 1 ∈ A ∧ P.n + (t + 1) ∈ B) ∧
    ∀ t < P.n, P.n + (t + 1) ∈ ns → t + 1 ∈ ns := by
  have hs := (Milp.solves_iff a).1 h
  have hserve := Milp.C57_served_once hv h
  have hboth : ∀ t < P.n, (t + 1 ∈ ns ↔ P.n + (t + 1) ∈ ns) := by
    intro t ht
    obtain ⟨k', hk', h1, h2, h3⟩ := hserve.trips t ht
    by_cases e : k' = k
    · subst e
      obtain ⟨j1, hj1, _⟩ := h1.1
      obtain ⟨j2, hj2, _⟩ := h2.1
      exact ⟨fun _ => (T.mem _ (by omega) (by omega)).2 ⟨j2, hj2⟩, fun _ => (T.mem _ (by omega) (by omega)).2 ⟨j1, hj1⟩⟩
    · obtain ⟨a1, a2⟩ := h3 k hk (fun c => e c.symm)
      constructor
      · intro hm; obtain ⟨j, hj⟩ := (T.mem _ (by omega) (by omega)).1 hm; exact absurd hj (a1.1 j)
      · intro hm; obtain ⟨j, hj⟩ := (T.mem _ (by omega) (by omega)).1 hm; exact absurd hj (a2.1 j)
  refine ⟨fun t ht hmem => ?_, fun t ht hmem => (hboth t ht).2 hmem⟩
  obtain ⟨A, B, e⟩ := List.append_of_mem hmem
  refine ⟨A ++ [t + 1], B, by rw [e]; simp, by simp, ?_⟩
  have hm2 := (hboth t ht).1 hmem
  have hlt : a.u k (t + 1) < a.u k (P.n + (t + 1)) := by
    have hr := (hs.ride k hk (t + 1) (by omega) (by omega)).1
    rw [Milp.loadTime_pickup hv ht, Nat.add_comm (t + 1) P.n] at hr
    have h1 := hd _ (List.getElem_mem ht)
    have h2 : 0 ≤ P.travel (t + 1) (P.n + (t + 1)) := hm _ _
    linarith
  rw [e] at hm2
  have hr := T.rising
  rw [e, List.pairwise_append] at hr
  rcases List.mem_append.1 hm2 with hA | hB
  · have := hr.2.2 _ hA (t + 1) (by simp)
    linarith
  · rcases List.mem_cons.1 hB with e2 | hB
    · omega
    · exact hB

/-- The route of a vehicle of a solution. -/
theorem decodeRoute_tour {k veh : Nat} {ns : List Nat} (h : Heap) (hvs : vs ≠ [])
    (hD : DistinctPlaces E ((milpOf E vs ts).pos 0) ts) (ho : (E.vehicle veh).origin.position = (milpOf E vs ts).pos 0)
    (hm : ∀ p q, 0 ≤ E.metric p q) (hd : ∀ t ∈ ts, 0 < (E.trip t).origin.duration)
    (hs : (milpOf E vs ts).solves a = true) (hk : k < vs.length)
    (hback : (milpOf E vs ts).Uses a k (2 * ts.length + 1) 0 →
      (milpOf E vs ts).pos (2 * ts.length + 1) = (milpOf E vs ts).pos 0)
    (T : (milpOf E vs ts).Tour a k ns) :
    ∃ h', decodeRoute E vs ts a k veh h = (.ok h.core.nRoute, h') ∧
      NewRoute E h h' veh ((0 :: ns).map (nodeVisit E ts a k veh) ++ [homeVisit E veh]) := by
  have hv := milpOf_vehicles (E := E) (ts := ts) hvs
  have hpairs := T.pairs hv hm (by
    intro t ht
    obtain ⟨i, hi, rfl⟩ := List.mem_map.1 (show t ∈ ts.map E.trip from ht)
    exact hd i hi) hs (by simpa [milpOf, Milp.m] using hk)
  rw [milpOf_n] at hpairs
  have hinner := T.inner
  rw [milpOf_n] at hinner
  have hnd : ns.Nodup := T.rising.imp fun h e => by rw [e] at h; exact lt_irrefl _ h
  rcases T.visited with e | ⟨e, e2, hu⟩
  · refine decode_nodes (lead := [(milpOf E vs ts).pos 0]) h hvs hD ho hnd hinner hpairs.1 hpairs.2 ?_ ?_
    · unfold Milp.visitedPositions; rw [e]; rfl
    · intro p hp; rw [List.mem_singleton] at hp; rw [hp, ho]
  · rw [milpOf_n] at e hu
    refine decode_nodes (lead := [(milpOf E vs ts).pos 0, (milpOf E vs ts).pos 0]) h hvs hD ho hnd hinner hpairs.1 hpairs.2 ?_ ?_
    · unfold Milp.visitedPositions; rw [e, e2]
      simp [hback hu]
    · intro p hp
      simp only [List.mem_cons, List.not_mem_nil, or_false, or_self] at hp
      rw [hp, ho]

end Jinete
