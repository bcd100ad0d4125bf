import Verif.Proofs.Shift
import Verif.Spec.Duties

/-!
# `_compute_one` and `compute`
-/

set_option autoImplicit false

namespace Jinete

variable {E : Env}

theorem Below.trans {h h' h'' : Heap} (a : Below h h') (b : Below h' h'') : Below h h'' where
  nStop := a.nStop.trans b.nStop
  nPt := a.nPt.trans b.nPt
  nRoute := a.nRoute.trans b.nRoute
  stop x hx := (b.stop x (lt_of_lt_of_le hx a.nStop)).trans (a.stop x hx)
  caches x hx := by
    obtain ⟨b1, b2, b3, b4⟩ := b.caches x (lt_of_lt_of_le hx a.nStop)
    obtain ⟨a1, a2, a3, a4⟩ := a.caches x hx
    exact ⟨b1.trans a1, b2.trans a2, b3.trans a3, b4.trans a4⟩
  pt p hp := ⟨((b.pt p (lt_of_lt_of_le hp a.nPt)).1).trans (a.pt p hp).1, ((b.pt p (lt_of_lt_of_le hp a.nPt)).2).trans (a.pt p hp).2⟩
  route q hq := ⟨((b.route q (lt_of_lt_of_le hq a.nRoute)).1).trans (a.route q hq).1,
    ((b.route q (lt_of_lt_of_le hq a.nRoute)).2).trans (a.route q hq).2⟩

/-- The parts of `_compute_one` after cloning, regrouped. -/
theorem computeOne_eq (r trip i j : Nat) (h : Heap) : computeOne E r trip i j h =
    (cloneRouteIdx E r (i + 1) >>= fun x => buildTrip E x.1 trip i j >>= fun p =>
      appendPlannedTrip E x.1 p >>= fun _ => improveRideTimes E x.1 x.2 >>= fun _ => pure x.1) h := by
  unfold computeOne
  simp only [Py.bind_run]
  cases cloneRouteIdx E r (i + 1) h with
  | mk a h1 =>
    cases a with
    | error e => rfl
    | ok x =>
      obtain ⟨r', idx⟩ := x
      simp only [buildTrip, Py.bind_run]
      cases buildPickup E r' trip i h1 with
      | mk a h2 =>
        cases a with
        | error e => rfl
        | ok u =>
          simp only
          cases buildDelivery E r' trip i j u h2 with
          | mk a h3 =>
            cases a with
            | error e => rfl
            | ok d => rfl

theorem picks_duties (c : Core) (r : Nat) : tripsOf c r = (duties c r).flatMap Duty.picks := by
  unfold tripsOf duties
  rw [List.flatMap_map]
  rfl

theorem tripsOf_eq : ∀ (c : Core) (r : Nat), tripsOf c r = routeTrips c r := by
  intro c r
  unfold tripsOf itinerary routeTrips routePlannedTrips
  rw [List.flatMap_map, List.map_flatMap]
  rfl

/-- The trips after an insertion. -/
theorem withTrip_picks (E : Env) {t i j : Nat} {l : List Duty} (hij : i < j) :
    ((withTrip E t i j l).flatMap Duty.picks).Perm (t :: l.flatMap Duty.picks) := by
  have hl : l = l.take (i + 1) ++ ((l.take j).drop (i + 1) ++ l.drop j) := by
    have h0 : l.take (i + 1) = (l.take j).take (i + 1) := by rw [List.take_take]; congr 1; omega
    rw [← List.append_assoc, h0, List.take_append_drop, List.take_append_drop]
  unfold withTrip
  conv => rhs; rw [hl]
  simp only [List.flatMap_append, List.flatMap_cons]
  have h1 : (pickDuty E t).picks = [t] := rfl
  have h2 : (dropDuty E t).picks = [] := rfl
  rw [h1, h2]
  simp only [List.nil_append, List.singleton_append]
  exact List.perm_middle

/-- What `_compute_one` yields. -/
structure OneResult (E : Env) (md : Mode) (R : Nat → Prop) (h h' : Heap) (r t i j r' : Nat) (b : Bool) : Prop where
  inv : Inv E md (Plus R r') h'
  new : r' = h.core.nRoute
  nRoute : h'.core.nRoute = h.core.nRoute + 1
  same : SameT E R h.core h'.core
  duties : duties h'.core r' = withTrip E t i j (duties h.core r)
  vehicle : (h'.core.route r').vehicle = (h.core.route r).vehicle
  judged : Judged E md h' r' b
  core : (i ≤ 1 ∨ ∀ s ∈ (h.core.route r).stops[1]?, (tmAt E h.core s).start = (tmAt E h.core s).arr) → SameCore R h.core h'.core
  apart : SameCore (fun q => R q ∧ (h.core.route q).vehicle ≠ (h.core.route r).vehicle) h.core h'.core
  others : SameCore (fun q => R q ∧ (h.core.route q).stops.head? ≠ (h.core.route r).stops.head?) h.core h'.core
  kept : ∀ q b, R q → h.rfeas q = some b → h'.rfeas q = some b
  owner : ∀ p ∈ routePlannedTrips h'.core r', (h'.core.pt p).trip ∉ tripsOf h.core r →
    (h'.core.pt p).vehicle = (h.core.route r).vehicle
  verdict : md = .exact → (b = true ↔ FeasibleItinerary E (E.vehicle (h.core.route r).vehicle)
    (postponed E (E.vehicle (h.core.route r).vehicle) (withVisits E t i j (itinerary h.core r))))
  times : md = .exact → routeTimetable E h'.core r' = vehicleTimetable E (E.vehicle (h.core.route r).vehicle)
    (postponed E (E.vehicle (h.core.route r).vehicle) (withVisits E t i j (itinerary h.core r)))

/-- Timetables are read off the stops. -/
theorem Chained.timetable_map {c : Core} {r : Nat} (hc : Chained c r) :
    routeTimetable E c r = (c.route r).stops.map (tmAt E c) := by
  refine List.ext_getElem? fun k => ?_
  rw [List.getElem?_map]
  cases hk : (c.route r).stops[k]? with
  | some s => rw [(hc.timetable_idx hk).1]; rfl
  | none =>
    rw [Option.map_none, List.getElem?_eq_none_iff, routeTimetable_length]
    exact List.getElem?_eq_none_iff.1 hk

/-- The itinerary after the depot adjustment. -/
theorem Adjusted.itinerary {c c' : Core} {r : Nat} (a : Adjusted E c c' r) (hw : WellFormed c r) :
    itinerary c' r = postponed E (E.vehicle (c.route r).vehicle) (itinerary c r) := by
  obtain ⟨s0, s1, rest, hs⟩ : ∃ s0 s1 rest, (c.route r).stops = s0 :: s1 :: rest := by
    have := hw.length
    match hh : (c.route r).stops, this with
    | a :: b :: t, _ => exact ⟨a, b, t, rfl⟩
  have hT : vehicleTimetable E (E.vehicle (c.route r).vehicle) (Jinete.itinerary c r) =
      tmAt E c s0 :: tmAt E c s1 :: rest.map (tmAt E c) := by
    have := hw.toChained.timetable_map (E := E)
    rw [hs] at this
    exact this
  have hI : ∀ c : Core, (c.route r).stops = s0 :: s1 :: rest →
      Jinete.itinerary c r = visitOf c s0 :: (s1 :: rest).map (visitOf c) := by
    intro c h
    unfold Jinete.itinerary
    rw [h]
    rfl
  have htail : (s1 :: rest).map (visitOf c') = (s1 :: rest).map (visitOf c) := by
    refine List.map_congr_left fun s hm => ?_
    have hm' : s ∈ (c.route r).stops.tail := by rw [hs]; exact hm
    have hms := List.mem_of_mem_tail hm'
    have h1 := a.same.serve rfl hms
    have h2 := a.same.start r rfl s hm'
    have e1 : (visitOf c' s).pos = (visitOf c s).pos := h1.pos
    have e2 : (visitOf c' s).request = (visitOf c s).request := h2
    have ext : ∀ v w : Visit, v.pos = w.pos → v.request = w.request → v.picks = w.picks → v.drops = w.drops → v = w := by
      rintro ⟨⟩ ⟨⟩ h1 h2 h3 h4
      simp only at h1 h2 h3 h4
      rw [h1, h2, h3, h4]
    exact ext _ _ e1 e2 h1.picks h1.drops
  have hd := a.depot s0 s1 rest hs
  rw [hI c' (by rw [a.same.route r rfl, hs]), htail, hI c hs]
  unfold postponed
  rw [← hI c hs]
  have hf : firstWait E (E.vehicle (c.route r).vehicle) (Jinete.itinerary c r) = (tmAt E c s1).start - (tmAt E c s1).arr := by
    unfold firstWait
    rw [hT]
  rw [hf]
  by_cases h0 : (tmAt E c s1).start = (tmAt E c s1).arr
  · rw [if_pos (sub_eq_zero.2 h0), hd.1 h0, hI c hs]
  · rw [if_neg (fun e => h0 (sub_eq_zero.1 e)), hd.2 h0, hI c hs]

theorem visit_duty {c c' : Core} {s : Nat} (h : SameServe c c' s) : (visitOf c' s).duty = (visitOf c s).duty := by
  have h1 : (visitOf c' s).pos = (visitOf c s).pos := h.pos
  simp only [Visit.duty, h.picks, h.drops, h1]

theorem computeOne_run {md : Mode} {R : Nat → Prop} {h : Heap} {r t i j : Nat} (hE : EnvOK E) (inv : Inv E md R h)
    (hr : R r) (hij : i < j) (hj : j < (h.core.route r).stops.length) (ht : t ∉ tripsOf h.core r)
    (hx : md = .exact → ∀ t, (E.trip t).timeout = .inf) :
    ∃ r' b h', computeOne E r t i j h = (.ok r', h') ∧ OneResult E md R h h' r t i j r' b := by
  have hw := inv.ok.wf r hr
  obtain ⟨r', idx, h1, pre, suf, fresh, e1, cl, hpl, hidx1, hidx2⟩ := cloneRouteIdx_run (E := E) hw (i + 1)
  have inv1 : Inv E md (Plus R r') h1 := cl.inv inv hr (by omega)
  have hRr : ¬ R r' := by
    intro hq
    have := (inv.ok.wf r' hq).exists_
    rw [cl.new] at this; omega
  have hlen1 : (h1.core.route r').stops.length = (h.core.route r).stops.length := by
    rw [cl.stops, cl.old, List.length_append, List.length_append, cl.len]
  obtain ⟨p, u, d, h2, e2, bt⟩ := buildTrip_run (E := E) t cl.wf hij (by rw [hlen1]; exact hj)
  set l := (h1.core.route r').stops with hl
  have hlen : l.length = (h.core.route r).stops.length := hlen1
  have ready : Ready h2.core r' p u d (l.take (i + 1)) ((l.take j).drop (i + 1)) (l.drop j) := bt.ready
  have inv2 : Inv E md (Plus R r') h2 := inv1.keeps (bt.below.keeps inv1.ok.wf)
  have bel : Below h h2 := cl.below.trans bt.below
  have sc2 : SameCore R h.core h2.core := (bel.keeps inv.ok.wf).core
  have st2 : SameT E R h.core h2.core := SameT.of_core sc2 inv.ok.wf
  have idxle : idx ≤ i := by omega
  have infresh : ∀ k, idx ≤ k → ∀ x ∈ l.drop k, x ∈ fresh := by
    intro k hk x hx
    rw [hl, cl.stops, List.drop_append, List.drop_eq_nil_of_le (by omega), List.nil_append] at hx
    exact List.mem_of_mem_drop hx
  have freshOK : ∀ x ∈ fresh, h.core.nStop ≤ x ∧ (∀ q ∈ ptsAt h2.core x, h.core.nPt ≤ q) ∧ h2.sfeas x = none := by
    intro x hx
    have hlt : x < h1.core.nStop := cl.wf.alloc x (by rw [cl.stops]; exact List.mem_append_right _ hx)
    refine ⟨(cl.freshStop x hx).1, ?_, ?_⟩
    · unfold ptsAt
      rw [bt.below.stop x hlt]
      exact fun q hq => (cl.freshPt x hx q hq).1
    · rw [(bt.below.caches x hlt).2.2.2, (cl.freshStop x hx).2.2]
  have newOK : ∀ x, x = u ∨ x = d → h.core.nStop ≤ x ∧ (∀ q ∈ ptsAt h2.core x, h.core.nPt ≤ q) ∧ h2.sfeas x = none := by
    rintro x (rfl | rfl)
    · refine ⟨cl.nStop.trans bt.uNew, ?_, bt.uFeas⟩
      unfold ptsAt
      rw [bt.ready.u_pickups, bt.ready.u_deliveries]
      intro q hq
      have : q = p := by simpa using hq
      rw [this]; exact cl.nPt.trans bt.pNew
    · refine ⟨cl.nStop.trans bt.dNew, ?_, bt.dFeas⟩
      unfold ptsAt
      rw [bt.ready.d_pickups, bt.ready.d_deliveries]
      intro q hq
      have : q = p := by simpa using hq
      rw [this]; exact cl.nPt.trans bt.pNew
  have memMid : ∀ x ∈ (l.take j).drop (i + 1), x ∈ l.drop (i + 1) := by
    intro x hx
    rw [List.drop_take] at hx
    exact List.mem_of_mem_take hx
  have memSuf : ∀ x ∈ l.drop j, x ∈ l.drop (i + 1) := by
    intro x hx
    have : j = (i + 1) + (j - (i + 1)) := by omega
    rw [this, ← List.drop_drop] at hx
    exact List.mem_of_mem_drop hx
  have hit2 : itinerary h2.core r' = itinerary h.core r := by
    rw [← cl.itinerary hw]
    exact (bt.below.keeps inv1.ok.wf).core.itinerary (R := Plus R r') Plus.right
  obtain ⟨h3, e3, inv3, sc3, ap⟩ := append_inv (h0 := h.core) hE inv.ok.wf st2 inv2 hRr ready
    (by rw [bt.trip, hit2]; exact ht)
    (by
      intro s hs
      simp only [List.mem_cons, List.mem_append] at hs
      rcases hs with rfl | hs | rfl | hs
      · exact newOK _ (.inl rfl)
      · exact freshOK s (infresh _ (by omega) s (memMid s hs))
      · exact newOK _ (.inr rfl)
      · exact freshOK s (infresh _ (by omega) s (memSuf s hs)))
    (by rw [(bt.below.route r' (by rw [cl.new, cl.nRoute]; omega)).2, cl.rfeas])
    (by
      by_cases hi : i = 0
      · right
        intro s hs
        have h0 : idx = 0 := by omega
        refine (freshOK s (infresh 0 (by omega) s ?_)).1
        have := List.mem_of_mem_head? hs
        exact List.mem_of_mem_take this
      · left
        rw [List.length_take, hlen]; omega)
  have st3 : SameT E R h.core h3.core := st2.trans (SameT.of_core sc3 fun q hq => sc2.wf hq (inv.ok.wf q hq))
  -- the first two stops
  have hst3 := ap.stops
  obtain ⟨s0, s1, rest, hs01⟩ : ∃ s0 s1 rest, (h3.core.route r').stops = s0 :: s1 :: rest := by
    have := (inv3.ok.wf r' Plus.right).length
    match hh : (h3.core.route r').stops, this with
    | a :: b :: t, _ => exact ⟨a, b, t, rfl⟩
  have hlen3 : (h3.core.route r').stops.length = l.length + 2 := by
    rw [hst3]
    simp only [List.length_append, List.length_cons, List.length_take, List.length_drop]
    omega
  have ptsEq : ∀ x, ptsAt h3.core x = ptsAt h2.core x := by
    intro x
    unfold ptsAt
    rw [(ap.sets x).1, (ap.sets x).2]
  have priv : Private h.core h3.core ((h3.core.route r').stops.drop (max idx 1)) := by
    intro s hs
    suffices hh : h.core.nStop ≤ s ∧ (∀ q ∈ ptsAt h2.core s, h.core.nPt ≤ q) ∧ h2.sfeas s = none by
      exact ⟨hh.1, by rw [ptsEq]; exact hh.2.1⟩
    rw [hst3, List.drop_append_of_le_length (by rw [List.length_take]; omega)] at hs
    rcases List.mem_append.1 hs with hs | hs
    · refine freshOK s (infresh idx (le_refl _) s ?_)
      rw [List.drop_take] at hs
      have h0 := List.mem_of_mem_take hs
      have : max idx 1 = idx + (max idx 1 - idx) := by omega
      rw [this, ← List.drop_drop] at h0
      exact List.mem_of_mem_drop h0
    · simp only [List.mem_cons, List.mem_append] at hs
      rcases hs with rfl | hs | rfl | hs
      · exact newOK _ (.inl rfl)
      · exact freshOK s (infresh _ (by omega) s (memMid s hs))
      · exact newOK _ (.inr rfl)
      · exact freshOK s (infresh _ (by omega) s (memSuf s hs))
  obtain ⟨h4, b, e4, inv4, st4, rs4, j4, core4, apart4, kept4, adj4⟩ := improveRideTimes_run (h0 := h.core) (idx := idx) hE inv.ok.wf st3 inv3 hs01
    (by rw [hlen3]; omega) priv
    (by rw [ap.rfeas, (bt.below.route r' (by rw [cl.new, cl.nRoute]; omega)).2, cl.rfeas]) hx
  refine ⟨r', b, h4, ?_, ?_⟩
  · rw [computeOne_eq, Py.bind_ok e1]
    simp only
    rw [Py.bind_ok e2, Py.bind_ok e3, Py.bind_ok e4]
    rfl
  · have hduties : duties h4.core r' = withTrip E t i j (duties h.core r) := by
      have hv : ∀ x ∈ l, visitOf h2.core x = visitOf h1.core x := fun x hx =>
        ((bt.below.keeps inv1.ok.wf).core.visit (R := Plus R r') Plus.right hx).visit
      have hmap : l.map (fun x => (visitOf h2.core x).duty) = duties h.core r := by
        unfold duties
        rw [← hit2]
        unfold itinerary
        rw [(bt.below.route r' (by rw [cl.new, cl.nRoute]; omega)).1, List.map_map]
        rfl
      have hss : ∀ x, (visitOf h4.core x).duty = (visitOf h2.core x).duty := by
        intro x
        rw [visit_duty (rs4.serve x), ap.visit]
      have : duties h4.core r' = ((h3.core.route r').stops).map fun x => (visitOf h2.core x).duty := by
        unfold duties itinerary
        rw [rs4.route, List.map_map]
        exact List.map_congr_left fun x _ => hss x
      rw [this, hst3, withTrip, ← hmap]
      simp only [List.map_append, List.map_cons, List.map_take, List.map_drop]
      rw [bt.uVisit, bt.dVisit]
      rfl
    have hs0l : s0 ∈ l := by
      rw [hst3] at hs01
      cases hl' : l with
      | nil => rw [hl'] at hlen; simp at hlen; omega
      | cons x m =>
        rw [hl'] at hs01
        simp at hs01
        simp [hs01.1]
    have hw3 := inv3.ok.wf r' Plus.right
    have hveh3 : (h3.core.route r').vehicle = (h.core.route r).vehicle := by
      rw [ap.vehicle, (bt.below.route r' (by rw [cl.new, cl.nRoute]; omega)).1, cl.vehicle]
    have hit3 : itinerary h3.core r' = withVisits E t i j (itinerary h.core r) := by
      have h2' : l.map (visitOf h2.core) = itinerary h.core r := by
        rw [← hit2]
        unfold itinerary
        rw [(bt.below.route r' (by rw [cl.new, cl.nRoute]; omega)).1]
      have h3' : itinerary h3.core r' = ((h3.core.route r').stops).map (visitOf h2.core) := by
        unfold itinerary
        exact List.map_congr_left fun x _ => ap.visit x
      rw [h3', hst3, withVisits, ← h2']
      simp only [List.map_append, List.map_cons, List.map_take, List.map_drop]
      rw [bt.uVisit, bt.dVisit]
    refine ⟨inv4, cl.new, ?_, st3.trans st4, hduties, ?_, j4, ?_, ?_, ?_, ?_, ?_, ?_, ?_⟩
    · rw [rs4.nRoute, ap.nRoute, bt.nRoute, cl.nRoute]
    · rw [rs4.route, ap.vehicle, (bt.below.route r' (by rw [cl.new, cl.nRoute]; omega)).1, cl.vehicle]
    · intro hc
      have hsc3 : SameCore R h.core h3.core := sc2.trans sc3
      refine hsc3.trans (core4 ?_)
      rcases hidx1 with h0 | h0
      · left
        exact (freshOK s0 (infresh 0 (by omega) s0 (by simpa using hs0l))).1
      · rcases hc with hc | hc
        · omega
        · right
          obtain ⟨a, b', m, hpre⟩ : ∃ a b' m, pre = a :: b' :: m := by
            match hh : pre, (show 2 ≤ pre.length by omega) with
            | a :: b' :: m, _ => exact ⟨a, b', m, rfl⟩
          have hl2 : l.take (i + 1) = pre ++ fresh.take (i + 1 - idx) := by
            rw [hl, cl.stops, List.take_append, List.take_of_length_le (by omega), hpl]
          have e3' : (h3.core.route r').stops = pre ++ (fresh.take (i + 1 - idx) ++ u :: ((l.take j).drop (i + 1) ++ d :: l.drop j)) := by
            rw [hst3, hl2, List.append_assoc]
          have hs1 : s1 = b' := by
            rw [e3', hpre] at hs01
            simp at hs01
            exact hs01.2.1.symm
          have hsv : ∀ x ∈ pre, SameVisit h.core h3.core x := by
            intro x hx
            have hx' : x ∈ (h.core.route r).stops := by rw [cl.old]; exact List.mem_append_left _ hx
            exact hsc3.visit hr hx'
          have := (tmAt_prefix (E := E) hw.toChained (inv3.ok.wf r' Plus.right).toChained cl.old e3' hsv (s := s1)
            (by rw [hs1, hpre]; simp)).1
          rw [this]
          refine hc s1 ?_
          rw [cl.old, hpre, hs1]
          simp
    · refine ((sc2.trans sc3).subset fun q hq => hq.1).trans (apart4 _ ?_)
      rintro q ⟨hq, hne⟩
      refine ⟨hq, fun hs => hne ?_⟩
      have h1 := (inv3.ok.wf q (.inl hq)).vehicle s0 hs
      have h2 := (inv3.ok.wf r' Plus.right).vehicle s0 (by rw [hs01]; simp)
      rw [st3.route q hq] at h1
      rw [ap.vehicle, (bt.below.route r' (by rw [cl.new, cl.nRoute]; omega)).1, cl.vehicle] at h2
      rw [← h1, ← h2]
    · refine ((sc2.trans sc3).subset fun q hq => hq.1).trans (apart4 _ ?_)
      rintro q ⟨hq, hne⟩
      refine ⟨hq, fun hs => ?_⟩
      rw [st3.route q hq] at hs
      rcases hidx1 with h0 | h0
      · have h1 := (freshOK s0 (infresh 0 (by omega) s0 (by simpa using hs0l))).1
        have h2 := (inv.ok.wf q hq).alloc s0 hs
        omega
      · obtain ⟨a, m, hpre⟩ : ∃ a m, pre = a :: m := by
          match hh : pre, (show 2 ≤ pre.length by omega) with
          | a :: m, _ => exact ⟨a, m, rfl⟩
        have hs0 : s0 = a := by
          rw [hst3, hl, cl.stops, hpre] at hs01
          simp at hs01
          exact hs01.1.symm
        have hr0 : (h.core.route r).stops = s0 :: (m ++ suf) := by rw [cl.old, hpre, hs0]; rfl
        have hp0 : (h.core.stop s0).previous = none := by
          have := hw.linked [] s0 (m ++ suf) hr0
          simpa using this
        refine hne ?_
        rw [(inv.ok.wf q hq).head_of_none hs hp0, hr0]
        rfl
    · intro q b' hq hb
      refine kept4 q b' (fun e => hRr (e ▸ hq)) ?_
      rw [ap.rfeas, (bel.route q (inv.ok.wf q hq).exists_).2, hb]
    · intro q hq hqt
      have hrt : r' < h1.core.nRoute := by rw [cl.new, cl.nRoute]; omega
      have hp4 : h4.core.pt p = h2.core.pt p := by rw [rs4.pt, ap.pt]
      have hpin : p ∈ routePlannedTrips h4.core r' := by
        refine List.mem_flatMap.2 ⟨u, ?_, ?_⟩
        · rw [rs4.route, hst3]; simp
        · have := rs4.stop u
          rw [this, (ap.sets u).1, bt.ready.u_pickups]; simp
      have hqt' : (h4.core.pt q).trip = t := by
        have hmem : (h4.core.pt q).trip ∈ tripsOf h4.core r' := by
          rw [tripsOf_eq]; exact List.mem_map.2 ⟨q, hq, rfl⟩
        rw [picks_duties, hduties] at hmem
        have := (withTrip_picks E (t := t) (l := duties h.core r) hij).subset hmem
        rcases List.mem_cons.1 this with e | e
        · exact e
        · rw [← picks_duties] at e; exact absurd e hqt
      have : q = p := (inv4.ok.wf r' Plus.right).trip_inj hq hpin (by rw [hqt', hp4, bt.trip])
      rw [this, hp4, bt.vehicle, cl.vehicle]
    · intro hex
      obtain ⟨cA, a4, -, hb⟩ := adj4 hex
      have := freshV_iff (E := E) (a4.same.wf rfl hw3)
      rw [a4.itinerary hw3, a4.same.route r' rfl, hveh3, hit3] at this
      rw [hb, this]
    · intro hex
      obtain ⟨cA, a4, ht4, -⟩ := adj4 hex
      have h1 := (a4.same.wf rfl hw3).toChained.timetable_map (E := E)
      have h2 := (inv4.ok.wf r' Plus.right).toChained.timetable_map (E := E)
      rw [h2, rs4.route, ← hit3, ← hveh3, ← a4.itinerary hw3]
      have h3 : vehicleTimetable E (E.vehicle (h3.core.route r').vehicle) (itinerary cA r') = routeTimetable E cA r' := by
        unfold routeTimetable
        rw [a4.same.route r' rfl]
      rw [h3, h1, a4.same.route r' rfl]
      exact List.map_congr_left fun s hs => ht4 s hs

end Jinete
