import Verif.Proofs.MilpFollow
import Verif.Proofs.Bound

/-!
# The itinerary of a vehicle of a solution meets the routing constraints
-/

set_option autoImplicit false

namespace Jinete

variable {E : Env} {vs ts : List Nat} {a : Assignment}

theorem serve_request {t : ℚ} {p : Pos} {v : Visit} {u : ℚ} (hr : v.request = some u) (he : v.earliest E ≤ u)
    (ha : t + E.metric p v.pos ≤ u) : (serve E t p v).start = u ∧ (serve E t p v).dep = u + v.loadTime E := by
  unfold serve
  simp only [hr, Option.getD_some]
  rw [max_eq_left he, max_eq_left ha]
  exact ⟨rfl, rfl⟩

/-- Times along visits with reachable requests. -/
theorem timetable_requests (f : Nat → Visit) (u : Nat → ℚ) (hreq : ∀ i, (f i).request = some (u i)) (home : Visit) :
    ∀ (ms : List Nat) (i : Nat),
    (i :: ms).IsChain (fun i j => u i + (f i).loadTime E + E.metric (f i).pos (f j).pos ≤ u j) →
    (∀ j ∈ ms, (f j).earliest E ≤ u j) →
    ∃ Y, timetable E (u i + (f i).loadTime E) (f i).pos (ms.map f ++ [home]) = Y ++
        [serve E (u ((i :: ms).getLast (by simp)) + (f ((i :: ms).getLast (by simp))).loadTime E)
          (f ((i :: ms).getLast (by simp))).pos home] ∧ Y.length = ms.length ∧
      ∀ (idx j : Nat), ms[idx]? = some j → ∀ x, Y[idx]? = some x → x.start = u j ∧ x.dep = u j + (f j).loadTime E := by
  intro ms
  induction ms with
  | nil => intro i _ _; exact ⟨[], rfl, rfl, fun idx j h => by simp at h⟩
  | cons j ms ih =>
    intro i hch he
    rw [List.isChain_cons_cons] at hch
    obtain ⟨h1, h2⟩ := serve_request (hreq j) (he j (by simp)) hch.1
    obtain ⟨Y, e, hl, hY⟩ := ih j hch.2 fun x hx => he x (List.mem_cons_of_mem _ hx)
    refine ⟨serve E (u i + (f i).loadTime E) (f i).pos (f j) :: Y, ?_, by simp [hl], ?_⟩
    · have e2 : (i :: j :: ms).getLast (by simp) = (j :: ms).getLast (by simp) := by simp
      rw [List.map_cons, List.cons_append, timetable, h2, e, e2]
      rfl
    · intro idx m hm x hx
      cases idx with
      | zero =>
        simp only [List.getElem?_cons_zero, Option.some.injEq] at hm hx
        subst hm; subst hx
        exact ⟨h1, h2⟩
      | succ idx =>
        rw [List.getElem?_cons_succ] at hm hx
        exact hY idx m hm x hx

theorem loadAfter_sum : ∀ (l : List Visit) (q : ℚ), loadAfter E q l =
    q + (l.map fun v => tripsCapacity E v.picks - tripsCapacity E v.drops).sum := by
  intro l
  induction l with
  | nil => intro q; simp [loadAfter]
  | cons v l ih =>
    intro q
    rw [loadAfter, ih, List.map_cons, List.sum_cons]
    ring

theorem loads_prefix {l : List Visit} {idx : Nat} {q : ℚ} (h : (loads E 0 l)[idx]? = some q) :
    q = ((l.take (idx + 1)).map fun v => tripsCapacity E v.picks - tripsCapacity E v.drops).sum := by
  have hlt : idx < l.length := by
    have := (List.getElem?_eq_some_iff.1 h).1
    rwa [loads_length] at this
  have e : l = l.take idx ++ l[idx] :: l.drop (idx + 1) := by simp
  have h2 := loads_at (E := E) 0 (l.take idx) (l.drop (idx + 1)) l[idx]
  rw [← e, List.length_take, min_eq_left (by omega), h, Option.some.injEq, loadAfter_sum, zero_add] at h2
  rw [h2]
  congr 2
  rw [← List.take_concat_get' l idx hlt]

theorem visit_load (hvs : vs ≠ []) {k veh i : Nat} (hi : i < 2 * ts.length + 1) :
    tripsCapacity E (nodeVisit E ts a k veh i).picks - tripsCapacity E (nodeVisit E ts a k veh i).drops =
      (milpOf E vs ts).request i := by
  have hv := milpOf_vehicles (E := E) (ts := ts) hvs
  unfold nodeVisit
  simp only
  rw [Milp.request_eq hv (by rw [milpOf_n]; omega)]
  by_cases h0 : i = 0
  · subst h0; simp [tripsCapacity, Milp.demand_origin]
  · by_cases h1 : i ≤ ts.length
    · rw [if_pos ⟨by omega, h1⟩, if_neg (by omega)]
      obtain ⟨t, rfl⟩ : ∃ t, i = t + 1 := ⟨i - 1, by omega⟩
      have ht : t < (milpOf E vs ts).n := by rw [milpOf_n]; omega
      rw [Milp.demand_pickup hv ht, milpOf_trip (by omega)]
      simp [tripsCapacity]
    · rw [if_neg (by omega), if_pos (by omega)]
      obtain ⟨t, rfl⟩ : ∃ t, i = ts.length + (t + 1) := ⟨i - ts.length - 1, by omega⟩
      have ht : t < (milpOf E vs ts).n := by rw [milpOf_n]; omega
      have h := Milp.demand_delivery hv ht
      rw [milpOf_n, milpOf_trip (by omega)] at h
      rw [h]
      simp [tripsCapacity]

theorem home_visit_load (veh : Nat) : tripsCapacity E (homeVisit E veh).picks - tripsCapacity E (homeVisit E veh).drops = 0 := by
  simp [homeVisit, tripsCapacity]

theorem mem_picks {k veh i t : Nat} (h : t ∈ (nodeVisit E ts a k veh i).picks) :
    ∃ n < ts.length, i = n + 1 ∧ t = ts.getD n 0 := by
  unfold nodeVisit at h
  simp only at h
  split at h
  · rename_i hi
    exact ⟨i - 1, by omega, by omega, by simpa using h⟩
  · simp at h

theorem mem_drops {k veh i t : Nat} (h : t ∈ (nodeVisit E ts a k veh i).drops) :
    ∃ n < ts.length, i = ts.length + (n + 1) ∧ t = ts.getD n 0 := by
  unfold nodeVisit at h
  simp only at h
  split at h
  · rename_i hi
    exact ⟨i - ts.length - 1, by omega, by omega, by simpa using h⟩
  · simp at h

theorem nodup_of_distinct {o : Pos} (hD : DistinctPlaces E o ts) : ts.Nodup := by
  have h1 := (List.nodup_cons.1 hD).2
  exact (List.nodup_append.1 h1).1.of_map _

theorem getD_inj (hn : ts.Nodup) {i j : Nat} (hi : i < ts.length) (hj : j < ts.length) (e : ts.getD i 0 = ts.getD j 0) : i = j := by
  simp only [List.getD_eq_getElem?_getD, List.getElem?_eq_getElem hi, List.getElem?_eq_getElem hj, Option.getD_some] at e
  exact (hn.getElem_inj_iff).1 e

theorem tour_feasible {o d : Pos} (H : Modelled E vs ts a o d) (hs : (milpOf E vs ts).solves a = true)
    {k : Nat} (hk : k < vs.length) {ns : List Nat} (T : (milpOf E vs ts).Tour a k ns) :
    FeasibleItinerary E (E.vehicle vs[k]) ((0 :: ns).map (nodeVisit E ts a k vs[k]) ++ [homeVisit E vs[k]]) := by
  have hvs := H.vehicles
  set P := milpOf E vs ts with hP
  have hv : P.vehicles ≠ [] := milpOf_vehicles hvs
  have hn : P.n = ts.length := milpOf_n
  have hkm : k < P.m := by simpa [hP, milpOf, Milp.m] using hk
  have hveh : P.vehicles[k]'hkm = E.vehicle vs[k] := by simp [hP, milpOf]
  have hc : P.Closes := by
    intro t ht
    obtain ⟨i, hi, rfl⟩ := List.mem_map.1 (show t ∈ ts.map E.trip from ht)
    exact H.closes i hi
  obtain ⟨v0, vs', hvs'⟩ := List.exists_cons_of_ne_nil hvs
  have hpos0 : P.pos 0 = o := by
    unfold Milp.pos
    rw [hP, milpOf_positions hvs']
    exact H.origin v0 (by rw [hvs']; simp)
  have hposN : P.pos (2 * ts.length + 1) = d := by
    unfold Milp.pos
    rw [hP, milpOf_positions hvs', List.getD_eq_getElem?_getD, List.getElem?_append_right (by simp; omega)]
    have : 2 * ts.length + 1 - ((E.vehicle v0).origin.position :: (List.map (fun t => (E.trip t).origin.position) ts ++
        List.map (fun t => (E.trip t).destination.position) ts)).length = 0 := by simp; omega
    rw [this]
    exact H.destination v0 (by rw [hvs']; simp)
  have ho : (E.vehicle vs[k]).origin.position = P.pos 0 := by rw [hpos0]; exact H.origin _ (List.getElem_mem hk)
  have hdst : (E.vehicle vs[k]).destination.position = P.pos (2 * ts.length + 1) := by
    rw [hposN]; exact H.destination _ (List.getElem_mem hk)
  have hne : ∀ t ∈ P.trips, t.origin.position ≠ t.destination.position := by
    intro t ht
    obtain ⟨i, hi, rfl⟩ := List.mem_map.1 (show t ∈ ts.map E.trip from ht)
    have h1 := (List.nodup_cons.1 H.places).2
    exact (List.nodup_append.1 h1).2.2 _ (List.mem_map_of_mem (f := fun t => (E.trip t).origin.position) hi) _
      (List.mem_map_of_mem (f := fun t => (E.trip t).destination.position) hi)
  have hsol := (Milp.solves_iff a).1 hs
  have hR := Milp.C58_respects_quick_destinations_partial hv hc hne (by
    intro t ht
    obtain ⟨i, hi, rfl⟩ := List.mem_map.1 (show t ∈ ts.map E.trip from ht)
    exact (H.unloading i hi).2) hs
  have hlen := P.len_eq hv
  set f := nodeVisit E ts a k vs[k] with hf
  set home := homeVisit E vs[k] with hhome
  have hinner := T.inner
  rw [hn] at hinner
  have hplace : ∀ i, i < 2 * ts.length + 1 → (f i).pos = P.pos i := fun i hi => by
    rw [milpOf_pos hvs hi ho]
    rfl
  have hreq : ∀ i, (f i).request = some (a.u k i) := fun i => rfl
  have htr : ∀ t (ht : t < ts.length), P.trips[t]'(by simpa [hP, milpOf] using ht) = E.trip (ts.getD t 0) :=
    fun t ht => milpOf_trip ht _
  -- loading times and opening times of the nodes
  have hload0 : (f 0).loadTime E = 0 := by
    simp [hf, nodeVisit, Visit.loadTime, maxD]
  have hearl0 : (f 0).earliest E = 0 := by
    simp [hf, nodeVisit, Visit.earliest, maxD]
  have hpick : ∀ t, t < ts.length → (f (t + 1)).loadTime E = (E.trip (ts.getD t 0)).origin.duration ∧
      (f (t + 1)).earliest E = (E.trip (ts.getD t 0)).originEarliest := by
    intro t ht
    have c1 : 1 ≤ t + 1 ∧ t + 1 ≤ ts.length := by omega
    have c2 : ¬ (ts.length < t + 1 ∧ t + 1 ≤ 2 * ts.length) := by omega
    simp only [hf, nodeVisit, Visit.loadTime, Visit.earliest, if_pos c1, if_neg c2, Nat.add_sub_cancel]
    simp [maxD]
  have hdrop : ∀ t, t < ts.length → (f (ts.length + (t + 1))).loadTime E = (E.trip (ts.getD t 0)).destination.duration ∧
      (f (ts.length + (t + 1))).earliest E = (E.trip (ts.getD t 0)).destinationEarliest E.metric := by
    intro t ht
    have c1 : ¬ (1 ≤ ts.length + (t + 1) ∧ ts.length + (t + 1) ≤ ts.length) := by omega
    have c2 : ts.length < ts.length + (t + 1) ∧ ts.length + (t + 1) ≤ 2 * ts.length := by omega
    have e : ts.length + (t + 1) - ts.length - 1 = t := by omega
    simp only [hf, nodeVisit, Visit.loadTime, Visit.earliest, if_neg c1, if_pos c2, e]
    simp [maxD]
  have hcases : ∀ i, 1 ≤ i → i ≤ 2 * ts.length → (∃ t < ts.length, i = t + 1) ∨ ∃ t < ts.length, i = ts.length + (t + 1) := by
    intro i h1 h2
    by_cases h : i ≤ ts.length
    · exact .inl ⟨i - 1, by omega, by omega⟩
    · exact .inr ⟨i - ts.length - 1, by omega, by omega⟩
  have hearl : ∀ i ∈ ns, (f i).earliest E ≤ a.u k i := by
    intro i hi
    obtain ⟨h1, h2⟩ := hinner i hi
    rcases hcases i h1 h2 with ⟨t, ht, rfl⟩ | ⟨t, ht, rfl⟩
    · rw [(hpick t ht).2]
      have := (hR.pickup_window k hkm t (by rw [hn]; exact ht)).1
      rwa [htr t ht] at this
    · rw [(hdrop t ht).2]
      have := (hR.delivery_window k hkm t (by rw [hn]; exact ht)).1
      rwa [htr t ht, hn] at this
  -- arcs
  have harc : ∀ i j, i < 2 * ts.length + 1 → P.Uses a k i j → a.u k i + (f i).loadTime E + P.travel i j ≤ a.u k j := by
    intro i j hi hu
    by_cases h0 : i = 0
    · subst h0
      rw [hload0, add_zero]
      exact hR.from_depot k hkm j hu
    · rcases hcases i (by omega) (by omega) with ⟨t, ht, rfl⟩ | ⟨t, ht, rfl⟩
      · rw [(hpick t ht).1]
        have := hR.from_pickup k hkm j t (by rw [hn]; exact ht) hu
        rwa [htr t ht] at this
      · rw [(hdrop t ht).1]
        have := hR.from_delivery k hkm j t (by rw [hn]; exact ht) (by rw [hn]; exact hu)
        rwa [htr t ht, hn] at this
  have hchain := T.path.arcs
  rw [hn] at hchain
  have hch1 : (0 :: ns).IsChain fun i j => P.Uses a k i j := by
    rw [← List.cons_append] at hchain
    exact (List.isChain_append.1 hchain).1
  have hlast : P.Uses a k ((0 :: ns).getLast (by simp)) (2 * ts.length + 1) := by
    rw [← List.cons_append] at hchain
    have := (List.isChain_append.1 hchain).2.2
    exact this _ (List.getLast?_eq_some_getLast (l := 0 :: ns) (by simp)) _ rfl
  have hmem0 : ∀ i ∈ 0 :: ns, i < 2 * ts.length + 1 := by
    intro i hi
    rcases List.mem_cons.1 hi with rfl | hi
    · omega
    · have := hinner i hi; omega
  have hch2 : (0 :: ns).IsChain fun i j => a.u k i + (f i).loadTime E + E.metric (f i).pos (f j).pos ≤ a.u k j := by
    refine List.IsChain.imp_of_mem_imp ?_ hch1
    intro i j hi hj hu
    rw [hplace i (hmem0 i hi), hplace j (hmem0 j hj)]
    exact harc i j (hmem0 i hi) hu
  -- the timetable
  obtain ⟨Y, eY, lY, hY⟩ := timetable_requests (E := E) f (a.u k) hreq home ns 0 hch2 hearl
  have hu0 : 0 ≤ a.u k 0 := hsol.u_nonneg k hkm 0 (by omega)
  have hdep := H.depots k hk
  have hfirst := serve_request (E := E) (t := (E.vehicle vs[k]).origin.earliest) (p := (E.vehicle vs[k]).origin.position)
    (hreq 0) (by rw [hearl0]; exact hu0) (by
      rw [hplace 0 (by omega), ← ho, H.here, add_zero]; exact hdep.1)
  set x0 := serve E (E.vehicle vs[k]).origin.earliest (E.vehicle vs[k]).origin.position (f 0) with hx0
  set z := (0 :: ns).getLast (by simp) with hz
  set y := serve E (a.u k z + (f z).loadTime E) (f z).pos home with hy
  have htt : vehicleTimetable E (E.vehicle vs[k]) ((0 :: ns).map f ++ [home]) = x0 :: Y ++ [y] := by
    unfold vehicleTimetable
    rw [List.map_cons, List.cons_append, timetable, ← hx0, hfirst.2, eY, List.cons_append]
  have hzm : z ∈ 0 :: ns := List.getLast_mem _
  have hydep : y.dep ≤ a.u k (2 * ts.length + 1) := by
    have h1 := harc z _ (hmem0 z hzm) hlast
    unfold Milp.travel at h1
    rw [← hplace z (hmem0 z hzm), ← hdst] at h1
    have h2 : y.dep = max (max (a.u k z + (f z).loadTime E + E.metric (f z).pos (E.vehicle vs[k]).destination.position) 0)
        (a.u k z + (f z).loadTime E + E.metric (f z).pos (E.vehicle vs[k]).destination.position) := by
      rw [hy]
      simp [serve, hhome, homeVisit, Visit.earliest, Visit.loadTime, maxD]
    rw [h2]
    have h3 : 0 ≤ a.u k (2 * ts.length + 1) := hsol.u_nonneg k hkm _ (by omega)
    exact max_le (max_le h1 h3) h1
  have herr : (0 : ℚ) ≤ errorBound := by unfold errorBound; norm_num
  have hleQ : ∀ {x : ℚ} {b : Bound}, Bound.leQ x b = true → (b.addQ errorBound).leQ x = true := by
    intro x b h
    exact (Bound.leQ_addQ _ _ _).2 (Bound.leQ_mono (by linarith) h)
  -- times at the nodes
  have htimes : ∀ (idx : Nat) (v : Visit) (x : Tm), ((0 :: ns).map f ++ [home])[idx]? = some v →
      (x0 :: Y ++ [y])[idx]? = some x →
      (∃ i, (0 :: ns)[idx]? = some i ∧ v = f i ∧ x.start = a.u k i ∧ x.dep = a.u k i + (f i).loadTime E) ∨ v = home := by
    intro idx v x hv' hx'
    by_cases c : idx < (0 :: ns).length
    · left
      rw [List.getElem?_append_left (by simpa using c), List.getElem?_map] at hv'
      rw [List.getElem?_append_left (by simpa [lY] using c)] at hx'
      rw [List.getElem?_eq_getElem c] at hv'
      refine ⟨(0 :: ns)[idx], List.getElem?_eq_getElem c, (Option.some.inj hv').symm, ?_⟩
      cases idx with
      | zero =>
        simp only [List.getElem?_cons_zero, Option.some.injEq] at hx'
        subst hx'
        exact hfirst
      | succ idx =>
        rw [List.getElem?_cons_succ] at hx'
        simp only [List.getElem_cons_succ]
        have c' : idx < ns.length := by simpa using c
        exact hY idx _ (List.getElem?_eq_getElem c') x hx'
    · right
      rw [List.getElem?_append_right (by simpa using c)] at hv'
      rcases hd : idx - ((0 :: ns).map f).length with _ | m
      · rw [hd] at hv'; exact (Option.some.inj hv').symm
      · rw [hd] at hv'; simp at hv'
  have hloads : ∀ (idx i : Nat) (q : ℚ), (0 :: ns)[idx]? = some i → (loads E 0 ((0 :: ns).map f ++ [home]))[idx]? = some q →
      q ≤ (E.vehicle vs[k]).capacity := by
    intro idx i q hi hq
    obtain ⟨hlt, rfl⟩ := List.getElem?_eq_some_iff.1 hi
    have h1 := loads_prefix hq
    have h2 : ((0 :: ns).map f ++ [home]).take (idx + 1) = ((0 :: ns).take (idx + 1)).map f := by
      rw [List.take_append_of_le_length (by simpa using hlt), List.map_take]
    have h3 : ((0 :: ns).take (idx + 1)) = (0 :: ns).take idx ++ [(0 :: ns)[idx]] := (List.take_concat_get' _ idx hlt).symm
    have hsplit : 0 :: (ns ++ [2 * P.n + 1]) = (0 :: ns).take idx ++ (0 :: ns)[idx] :: ((0 :: ns).drop (idx + 1) ++ [2 * P.n + 1]) := by
      have e : 0 :: ns = (0 :: ns).take idx ++ (0 :: ns)[idx] :: (0 :: ns).drop (idx + 1) := by
        rw [List.getElem_cons_drop, List.take_append_drop]
      calc 0 :: (ns ++ [2 * P.n + 1]) = (0 :: ns) ++ [2 * P.n + 1] := rfl
        _ = ((0 :: ns).take idx ++ (0 :: ns)[idx] :: (0 :: ns).drop (idx + 1)) ++ [2 * P.n + 1] := by rw [← e]
        _ = _ := by simp only [List.append_assoc, List.cons_append]
    have h4 := Milp.C58_passengers_fit_partial hv hs hkm T.path hsplit
    rw [hveh, ← h3] at h4
    rw [h1, h2, List.map_map]
    refine le_trans (le_of_eq ?_) h4
    congr 1
    refine List.map_congr_left fun j hj => ?_
    exact visit_load hvs (hmem0 j (List.mem_of_mem_take hj))
  refine ⟨⟨?_, ?_, ?_, ?_, ?_⟩, ?_⟩
  · rw [List.map_cons, List.cons_append, List.head?_cons, Option.map_some]
    rfl
  · intro x hx
    rw [htt] at hx
    simp only [List.cons_append, List.head?_cons, Option.mem_some_iff] at hx
    subst hx
    have : x0.arr = (E.vehicle vs[k]).origin.earliest := by
      rw [hx0]
      simp only [serve]
      rw [hplace 0 (by omega), ← ho, H.here, add_zero]
    rw [this]; linarith
  · rw [List.getLast?_concat, Option.map_some]
    rfl
  · intro w hw
    rw [htt] at hw
    simp only [List.getLast?_concat, Option.mem_some_iff] at hw
    subst hw
    exact hleQ (Bound.leQ_mono hydep hdep.2)
  · intro x hx w hw
    rw [htt] at hx hw
    simp only [List.getLast?_concat, Option.mem_some_iff] at hw
    simp only [List.cons_append, List.head?_cons, Option.mem_some_iff] at hx
    subst hx; subst hw
    have h1 := hR.duration k hkm
    rw [hveh, hn] at h1
    rw [hfirst.2, hload0, add_zero]
    exact hleQ (Bound.leQ_mono (by linarith) h1)
  · intro i j v w x y' q q' t hvi hwj hx hy' hq hq' htv htw
    rw [htt] at hx hy'
    rcases htimes i v x hvi hx with ⟨m, hm, rfl, xs, xd⟩ | rfl
    · rcases htimes j w y' hwj hy' with ⟨m', hm', rfl, ys, yd⟩ | rfl
      · obtain ⟨n1, hn1, rfl, rfl⟩ := mem_picks htv
        obtain ⟨n2, hn2, rfl, e2⟩ := mem_drops htw
        have : n1 = n2 := getD_inj (nodup_of_distinct H.places) hn1 hn2 e2
        subst this
        have hn1' : n1 < P.n := by rw [hn]; exact hn1
        obtain ⟨w1, w2⟩ := hR.pickup_window k hkm n1 hn1'
        obtain ⟨w3, w4⟩ := hR.delivery_window k hkm n1 hn1'
        have w5 := (hR.ride k hkm n1 hn1').1
        rw [htr n1 hn1] at w1 w2 w3 w4 w5
        rw [hn] at w3 w4 w5
        have l1 := hloads i _ q hm hq
        have l2 := hloads j _ q' hm' hq'
        refine ⟨?_, ?_, ?_, ?_, ?_, ?_, ?_⟩
        · rw [xs]; linarith
        · rw [xs]; exact hleQ w2
        · rw [ys]; exact w3.trans (by linarith)
        · rw [ys]; exact hleQ w4
        · linarith
        · linarith
        · rw [ys, xd, (hpick n1 hn1).1]; exact hleQ w5
      · simp [hhome, homeVisit] at htw
    · simp [hhome, homeVisit] at htv

end Jinete
