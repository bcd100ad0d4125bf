import Verif.Proofs.Remove
import Verif.Props.Timing

/-!
# C10 to C14: inserting and removing stops and trips
-/

set_option autoImplicit false

namespace Jinete

variable {E : Env}

/-! ## C10 -/

/-- **C10.** Let the route be chained with agreeing memoised values, and let `s` be a new stop (created,
of the route's vehicle, not in the route, no planned trip both picked up and dropped at it) whose
`previous` is a stop `p` of the route that is not the last one. Then `insert_stop` succeeds; the stops are
the old ones with `s` right after `p`; every stop is linked to its predecessor; nothing is memoised at
`s` and the stops after it, the stops up to `p` keep what they had, so the memoised values agree with the
new schedule; no attribute of any object changes except the list of stops of this route and the
`previous` of the stop that followed `p`. -/
theorem C10_insert_stop_splices (h : Heap) (r s p f : Nat) (pre suf : List Nat)
    (hc : Chained h.core r) (ha : CachesAgree E h r)
    (hstops : (h.core.route r).stops = pre ++ p :: f :: suf) (hprev : (h.core.stop s).previous = some p)
    (hnew : s ∉ (h.core.route r).stops) (halloc : s < h.core.nStop)
    (hveh : (h.core.stop s).vehicle = (h.core.route r).vehicle)
    (hdisj : ∀ q ∈ (h.core.stop s).pickups, q ∉ (h.core.stop s).deliveries) :
    ∃ x h', insertStop r s h = (.ok x, h') ∧
      h'.core.route = Function.update h.core.route r { h.core.route r with stops := pre ++ p :: s :: f :: suf } ∧
      h'.core.stop = Function.update h.core.stop f { h.core.stop f with previous := some s } ∧
      h'.core.pt = h.core.pt ∧
      Chained h'.core r ∧ CachesAgree E h' r ∧
      (∀ y ∈ s :: f :: suf, h'.arr y = none ∧ h'.dep y = none ∧ h'.cap y = none) ∧
      (∀ y, y ∉ s :: f :: suf → h'.arr y = h.arr y ∧ h'.dep y = h.dep y ∧ h'.cap y = h.cap y) := by
  have e' : (h.core.route r).stops = (pre ++ [p]) ++ f :: suf := by simp [hstops]
  obtain ⟨ok1, ok2⟩ := afterInsert_ok (E := E) hc ha e' (by simpa using hprev) hnew halloc hveh
  refine ⟨_, _, insertStop_run hc.nodup hstops hprev hdisj, ?_, ?_, by simp, ok1, ok2, ?_, ?_⟩
  · simp [afterInsert, Heap.setRoute, Heap.setStop]
  · simp [afterInsert, Heap.setRoute, Heap.setStop]
  · intro y hy
    have := afterInsert_blank (h := h) (r := r) (pre := pre ++ [p]) hy
    exact ⟨this.arr, this.dep, this.cap⟩
  · intro y hy
    have := afterInsert_same (h := h) (r := r) (pre := pre ++ [p]) hy
    exact ⟨this.arr, this.dep, this.cap⟩

/-- **C10, error case.** If `previous` is not a stop of the route, `insert_stop` raises
`PreviousStopNotInRouteException` and changes nothing at all. -/
theorem C10_previous_not_in_route (h : Heap) (r s p : Nat) (hp : (h.core.stop s).previous = some p)
    (hm : p ∉ (h.core.route r).stops) : insertStop r s h = (.error .previousStopNotInRoute, h) :=
  insertStop_missing hp hm

/-- Inserting after the last stop is not supported: it raises `IndexError` and changes nothing. -/
theorem C10_after_last_raises (h : Heap) (r s p : Nat) (pre : List Nat) (hn : (h.core.route r).stops.Nodup)
    (hstops : (h.core.route r).stops = pre ++ [p]) (hp : (h.core.stop s).previous = some p) :
    insertStop r s h = (.error .indexError, h) := by
  unfold insertStop
  simp only [Py.read_bind, hp]
  have hnp : p ∉ pre := by
    rw [hstops] at hn
    intro hx
    exact (List.disjoint_of_nodup_append hn) hx (by simp)
  have hidx : (h.core.route r).stops.idxOf p = pre.length := by
    rw [hstops, List.idxOf_append_of_notMem hnp]; simp
  rw [if_pos (by rw [hstops]; simp), hidx]
  unfold insertStopAt
  have h1 : routeStops r h = (.ok (pre ++ [p]), h) := by simp [routeStops, hstops]
  have h2 : Py.index (pre ++ [p]) (pre.length + 1) h = (.error .indexError, h) := by simp [Py.index]
  rw [Py.bind_ok h1, Py.bind_error h2]

/-- A new stop ready to go after the second stop of the demo route. -/
def demoStopHeap : Heap := (newStop 0 [3] (demoHeap.core.route 2).stops[1]? none demoHeap).2

/-- The hypotheses of C10 hold for it. -/
example : ∃ p f pre suf, (demoStopHeap.core.route 2).stops = pre ++ p :: f :: suf ∧
    (demoStopHeap.core.stop demoHeap.core.nStop).previous = some p ∧ pre ≠ [] ∧
    Chained demoStopHeap.core 2 ∧ CachesAgree demoEnv demoStopHeap 2 ∧
    demoHeap.core.nStop ∉ (demoStopHeap.core.route 2).stops ∧ demoHeap.core.nStop < demoStopHeap.core.nStop := by
  refine ⟨(demoHeap.core.route 2).stops.getD 1 0, (demoHeap.core.route 2).stops.getD 2 0,
    (demoHeap.core.route 2).stops.take 1, (demoHeap.core.route 2).stops.drop 3, by decide +kernel, by decide +kernel,
    by decide +kernel, chainedB_sound (by decide +kernel), agreeB_sound (by decide +kernel), by decide +kernel,
    by decide +kernel⟩

/-! ## C11 -/

/-- The full claim C11: `insert_stop` returns the stop it inserted. -/
def InsertReturnsInserted : Prop :=
  ∀ (h : Heap) (r s p : Nat), Chained h.core r → p ∈ (h.core.route r).stops.dropLast →
    (h.core.stop s).previous = some p → s ∉ (h.core.route r).stops → s < h.core.nStop →
    (insertStop r s h).1 = .ok s

/-- C11 is false: on the demo route the last stop is returned. -/
theorem C11_returns_other_stop : ¬ InsertReturnsInserted := by
  intro hp
  have := hp demoStopHeap 2 demoHeap.core.nStop ((demoHeap.core.route 2).stops.getD 1 0)
    (chainedB_sound (by decide +kernel)) (by decide +kernel) (by decide +kernel) (by decide +kernel) (by decide +kernel)
  revert this
  decide +kernel

/-- **C11 (partial).** What is returned instead: always the last stop of the route, which is never the
inserted one. (Missing: the claim itself, which is false.) -/
theorem C11_returns_last_partial (h : Heap) (r s p f : Nat) (pre suf : List Nat) (hn : (h.core.route r).stops.Nodup)
    (hstops : (h.core.route r).stops = pre ++ p :: f :: suf) (hprev : (h.core.stop s).previous = some p)
    (hnew : s ∉ (h.core.route r).stops) (hdisj : ∀ q ∈ (h.core.stop s).pickups, q ∉ (h.core.stop s).deliveries) :
    ∃ x h', insertStop r s h = (.ok x, h') ∧ (h.core.route r).stops.getLast? = some x ∧
      (h'.core.route r).stops.getLast? = some x ∧ x ≠ s := by
  obtain ⟨q, z, hz⟩ := exists_concat (l := f :: suf) (by simp)
  have hl : (f :: suf).getLast? = some z := by rw [hz]; simp
  have h1 : (h.core.route r).stops.getLast? = some z := by
    have : pre ++ p :: f :: suf = (pre ++ [p]) ++ (f :: suf) := by simp
    rw [hstops, this, hz, ← List.append_assoc]; exact List.getLast?_concat
  have hrun := insertStop_run hn hstops hprev hdisj
  rw [hl] at hrun
  refine ⟨z, _, hrun, h1, ?_, ?_⟩
  · have : pre ++ [p] ++ s :: f :: suf = (pre ++ [p, s]) ++ (f :: suf) := by simp
    rw [afterInsert_stops, this, hz, ← List.append_assoc]; exact List.getLast?_concat
  · rintro rfl
    apply hnew
    have : z ∈ f :: suf := by rw [hz]; simp
    rw [hstops]
    exact List.mem_append_right _ (List.mem_cons_of_mem _ this)

/-! ## C12 -/

/-- **C12.** Appending a planned trip whose stops chain into a well formed route (`Ready`: pickup right
after `pre`, delivery right before `suf`) raises nothing; the new stop list is the old one with the two
new stops at those places (so the pickup precedes the delivery); the itinerary is the old one with the
two new visits; the route is well formed again; its trips are the old ones and the new one; the memoised
values agree with the new schedule; no other route's stop list changes. -/
theorem C12_append_planned_trip (hE : EnvOK E) (h : Heap) (r p u d : Nat) (pre mid suf : List Nat)
    (hw : WellFormed h.core r) (ha : CachesAgree E h r) (hr : Ready h.core r p u d pre mid suf)
    (ht : (h.core.pt p).trip ∉ routeTrips h.core r) :
    ∃ h', appendPlannedTrip E r p h = (.ok (), h') ∧
      (h'.core.route r).stops = pre ++ u :: mid ++ d :: suf ∧
      itinerary h'.core r = pre.map (visitOf h.core) ++
        ⟨(h.core.stop u).position, (h.core.stop u).start, [(h.core.pt p).trip], []⟩ :: mid.map (visitOf h.core) ++
        ⟨(h.core.stop d).position, (h.core.stop d).start, [], [(h.core.pt p).trip]⟩ :: suf.map (visitOf h.core) ∧
      WellFormed h'.core r ∧ CachesAgree E h' r ∧
      (routeTrips h'.core r).Perm ((h.core.pt p).trip :: routeTrips h.core r) ∧
      (∀ r', r' ≠ r → h'.core.route r' = h.core.route r') := by
  obtain ⟨h1, h', e, g1, g2, ok1, ok2⟩ := appendPlannedTrip_run hE hr hw.toChained ha
  have hw1 : WellFormed h1.core r := by rw [g1.core]; exact hw
  have ht' : (h1.core.pt p).trip ∉ (itinerary h1.core r).flatMap Visit.picks := by
    rw [g1.core, itinerary, flatMap_visit_picks]; exact ht
  have hst := afterAppend_stops (h := h1) (r := r) (u := u) (d := d) (pre := pre) (mid := mid) hr.suf_ne
  have hit : itinerary h'.core r = pre.map (visitOf h.core) ++
        ⟨(h.core.stop u).position, (h.core.stop u).start, [(h.core.pt p).trip], []⟩ :: mid.map (visitOf h.core) ++
        ⟨(h.core.stop d).position, (h.core.stop d).start, [], [(h.core.pt p).trip]⟩ :: suf.map (visitOf h.core) := by
    rw [g2.core, itinerary, hst]
    have : ∀ l : List Nat, l.map (visitOf (afterAppend h1 r u d pre mid suf).core) = l.map (visitOf h.core) := by
      intro l
      exact List.map_congr_left fun x _ => by rw [afterAppend_visit, g1.core]
    rw [this]
    have eu : visitOf h.core u = ⟨(h.core.stop u).position, (h.core.stop u).start, [(h.core.pt p).trip], []⟩ := by
      simp [visitOf, hr.u_pickups, hr.u_deliveries]
    have ed : visitOf h.core d = ⟨(h.core.stop d).position, (h.core.stop d).start, [], [(h.core.pt p).trip]⟩ := by
      simp [visitOf, hr.d_pickups, hr.d_deliveries]
    simp [eu, ed]
  have htrips : ∀ c : Core, routeTrips c r = (itinerary c r).flatMap Visit.picks := by
    intro c; rw [itinerary, flatMap_visit_picks]; rfl
  refine ⟨h', e, ?_, hit, ?_, g2.agree ok1 ok2, ?_, ?_⟩
  · rw [g2.core, hst]; simp
  · rw [g2.core]
    exact (hr.congr g1.core).wellFormed hw1 (g1.agree hw.toChained ha) ht'
  · rw [htrips, htrips, hit]
    have : itinerary h.core r = pre.map (visitOf h.core) ++ mid.map (visitOf h.core) ++ suf.map (visitOf h.core) := by
      simp [itinerary, hr.stops]
    rw [this]
    simp only [List.flatMap_append, List.flatMap_cons, List.nil_append, List.append_assoc,
      List.cons_append]
    exact List.perm_middle
  · intro r' hr'
    rw [g2.core, afterAppend_route_ne hr', g1.core]

/-! ## C13 -/

/-- **C13.** Appending a planned trip to a well formed route and then removing its trip raises nothing and
restores the list of stops and every attribute of every stop of the route (in particular the links); every
time query to every stop of the route then gets the same answer as before the two operations. -/
theorem C13_remove_undoes_append (hE : EnvOK E) (h : Heap) (r p u d : Nat) (pre mid suf : List Nat)
    (hw : WellFormed h.core r) (ha : CachesAgree E h r) (hr : Ready h.core r p u d pre mid suf)
    (ht : (h.core.pt p).trip ∉ routeTrips h.core r) :
    ∃ h1 h2, appendPlannedTrip E r p h = (.ok (), h1) ∧ removeTrip E r (h.core.pt p).trip h1 = (.ok (), h2) ∧
      h2.core.route = h.core.route ∧
      (∀ x ∈ (h.core.route r).stops, h2.core.stop x = h.core.stop x) ∧
      WellFormed h2.core r ∧ CachesAgree E h2 r ∧
      (∀ x ∈ (h.core.route r).stops, ∀ q : TimeQuery, (q.ask E x h2).1 = (q.ask E x h).1) := by
  obtain ⟨h1, e1, hst1, hit1, hw1, ha1, _, hro1⟩ := C12_append_planned_trip hE h r p u d pre mid suf hw ha hr ht
  obtain ⟨g0, g1', e0, q1, q2, _, _⟩ := appendPlannedTrip_run hE hr hw.toChained ha
  have hg : g1' = h1 := by rw [e1] at e0; cases e0; rfl
  subst hg
  have hvis : ∀ x, visitOf g1'.core x = visitOf h.core x := by
    intro x; rw [q2.core, afterAppend_visit, q1.core]
  have hitin : itinerary h.core r = (pre ++ mid ++ suf).map (visitOf h.core) := by rw [itinerary, hr.stops]
  have hnot : ∀ x ∈ pre ++ mid ++ suf, (h.core.pt p).trip ∉ stopTrips g1'.core x := by
    intro x hx
    rw [stopTrips_visit, hvis]
    have hi := hw.itinOK
    have hv : visitOf h.core x ∈ itinerary h.core r := by rw [hitin]; exact List.mem_map_of_mem hx
    have hp : (h.core.pt p).trip ∉ (itinerary h.core r).flatMap Visit.picks := by
      rw [itinerary, flatMap_visit_picks]; exact ht
    intro hm
    rcases List.mem_append.1 hm with hm | hm
    · exact hp (List.mem_flatMap.2 ⟨_, hv, hm⟩)
    · obtain ⟨a, b, eab⟩ := List.append_of_mem hv
      have := hi.dropAfter a _ b eab _ hm
      apply hp
      rw [eab, List.flatMap_append]
      exact List.mem_append_left _ this
  have hu : (h.core.pt p).trip ∈ stopTrips g1'.core u := by
    rw [stopTrips_visit, hvis]; simp [visitOf, hr.u_pickups]
  have hd : (h.core.pt p).trip ∈ stopTrips g1'.core d := by
    rw [stopTrips_visit, hvis]; simp [visitOf, hr.d_deliveries]
  obtain ⟨k, h2, e2, g2, st2, v2, ro2, sp2, pt2, n1, n2, n3, c2, a2⟩ :=
    removeTrip_run hE hw1.toChained ha1 (by rw [hst1]; simp) hr.pre_ne hr.suf_ne hu hd hnot
  have hroute : h2.core.route = h.core.route := by
    funext r'
    rw [g2.core]
    by_cases hr' : r' = r
    · subst hr'
      have hv : (k.core.route r').vehicle = (h.core.route r').vehicle := by
        rw [v2, q2.core, afterAppend_vehicle, q1.core]
      cases hk : k.core.route r' with
      | mk v l =>
        cases hh : h.core.route r' with
        | mk v' l' =>
          rw [hk, hh] at hv
          rw [hk] at st2
          have := hr.stops
          rw [hh] at this
          simp only at hv st2 this
          rw [hv, st2, this]
    · rw [ro2 r' hr', hro1 r' hr']
  have hbase : ∀ x, ∃ q, g1'.core.stop x = { h.core.stop x with previous := q } := by
    intro x
    refine ⟨(g1'.core.stop x).previous, ?_⟩
    rw [q2.core]
    have s := afterAppend_sets (h := g0) (r := r) (u := u) (d := d) (pre := pre) (mid := mid) (suf := suf) x
    have v := afterAppend_vehicleOf (h := g0) (r := r) (u := u) (d := d) (pre := pre) (mid := mid) (suf := suf) x
    rw [q1.core] at s v
    cases hx : (afterAppend g0 r u d pre mid suf).core.stop x
    rw [hx] at s v
    obtain ⟨s1, s2, s3, s4⟩ := s
    simp only at s1 s2 s3 s4 v
    rw [s1, s2, s3, s4, v]
  have hstop : ∀ x ∈ (h.core.route r).stops, h2.core.stop x = h.core.stop x := by
    intro x hx
    rw [g2.core]
    have hprev : (k.core.stop x).previous = (h.core.stop x).previous := by
      obtain ⟨a, b, eab⟩ := List.append_of_mem hx
      rw [hw.linked a x b eab]
      exact c2.linked a x b (by rw [st2, ← hr.stops]; exact eab)
    obtain ⟨q, hq⟩ := sp2 x
    obtain ⟨q', hq'⟩ := hbase x
    rw [hq'] at hq
    rw [hq] at hprev ⊢
    simp only at hprev
    rw [hprev]
  have hc2 : Chained h2.core r := by rw [g2.core]; exact c2
  have ha2 : CachesAgree E h2 r := g2.agree c2 a2
  have hpt : h2.core.pt = h.core.pt := by rw [g2.core, pt2, q2.core, afterAppend_pt, q1.core]
  have hw2 : WellFormed h2.core r := by
    refine hw.congr (by rw [hroute]) ?_ ?_ ?_ ?_ (fun p _ => by rw [hpt])
    · rw [g2.core, n1, q2.core, afterAppend_nStop, q1.core]
    · rw [g2.core, n2, q2.core, afterAppend_nPt, q1.core]
    · rw [g2.core, n3, q2.core, afterAppend_nRoute, q1.core]
    · intro s hs
      rw [hstop s hs]
      exact ⟨rfl, rfl, rfl, rfl⟩
  refine ⟨g1', h2, e1, e2, hroute, hstop, hw2, ha2, ?_⟩
  intro x hx q
  obtain ⟨a, b, eab⟩ := List.append_of_mem hx
  obtain ⟨_, x1, _⟩ := q.reads hc2 (by rw [hroute]; exact eab) h2 rfl ((cachesAgree_iff hc2).1 ha2)
  obtain ⟨_, x2, _⟩ := q.reads hw.toChained eab h rfl ((cachesAgree_iff hw.toChained).1 ha)
  rw [x1, x2]
  have : tmRev E h2.core x a.reverse = tmRev E h.core x a.reverse := by
    apply tmRev_congr
    intro y hy
    have hy' := hstop y (sub_of_split eab y hy)
    constructor
    · unfold visitOf; rw [hy', hpt]
    · rw [hy']
  rw [this]

/-- A planned trip ready to be appended to the demo route: trip 2, picked up after the second stop,
dropped before the last one. -/
def readyBuild : M Nat := do
  let l ← routeStops 2
  let a ← Py.index l 1
  let b ← Py.index l 4
  let u ← newStop 0 [0] (some a)
  let d ← newStop 0 [0] (some b)
  newPlannedTrip { demoEnv with trip := fun _ => { origin := { position := [0] }, destination := { position := [0] } } }
    0 2 (some u) (some d)

/-- The heap after `readyBuild`. -/
def readyHeap : Heap := (readyBuild demoHeap).2

/-- The hypotheses of C12 and C13 are met. -/
example : WellFormed readyHeap.core 2 ∧ CachesAgree demoEnv readyHeap 2 ∧
    (∃ p u d pre mid suf, Ready readyHeap.core 2 p u d pre mid suf ∧ mid.length = 3 ∧
      (readyHeap.core.pt p).trip ∉ routeTrips readyHeap.core 2) ∧ routeTrips readyHeap.core 2 = [0, 1] := by
  refine ⟨wfB_sound (by decide +kernel), agreeB_sound (by decide +kernel), ?_, by decide +kernel⟩
  refine ⟨demoHeap.core.nPt, demoHeap.core.nStop, demoHeap.core.nStop + 1, (readyHeap.core.route 2).stops.take 2,
    ((readyHeap.core.route 2).stops.drop 2).take 3, (readyHeap.core.route 2).stops.drop 5, ?_, by decide +kernel, by decide +kernel⟩
  constructor <;> decide +kernel

/-! ## C14 -/

/-- The full claim C14: removing the stop at any index of a chained route leaves a chained route without
that stop. -/
def RemoveKeepsLinked : Prop :=
  ∀ (h : Heap) (r idx s : Nat), Chained h.core r → (h.core.route r).stops[idx]? = some s →
    ∃ x h', removeStopAt r idx h = (.ok x, h') ∧ Chained h'.core r ∧ s ∉ (h'.core.route r).stops

/-- C14 is false at index 0: `self.stops[-1]` is the last stop, so the new first stop is linked to the
last one. -/
theorem C14_not_linked_at_zero : ¬ RemoveKeepsLinked := by
  intro hp
  obtain ⟨x, h', e, hc, _⟩ := hp demoHeap 2 0 ((demoHeap.core.route 2).stops.getD 0 0) (chainedB_sound (by decide +kernel))
    (by decide +kernel)
  have h1 : h' = (removeStopAt 2 0 demoHeap).2 := by rw [e]
  subst h1
  have := linked_iff_from.1 hc.linked
  have hl : ((removeStopAt 2 0 demoHeap).2.core.route 2).stops =
      ((demoHeap.core.route 2).stops.getD 1 0) :: (demoHeap.core.route 2).stops.drop 2 := by decide +kernel
  rw [hl] at this
  have := this.1
  revert this
  decide +kernel

/-- C14 also fails at the last index: `IndexError`, nothing changed. -/
theorem C14_last_raises (h : Heap) (r p s : Nat) (pre : List Nat) (e : (h.core.route r).stops = pre ++ [p, s]) :
    removeStopAt r (pre.length + 1) h = (.error .indexError, h) := by
  unfold removeStopAt
  have h1 : routeStops r h = (.ok (pre ++ [p, s]), h) := by simp [routeStops, e]
  rw [Py.bind_ok h1]
  have h2 : indexPred (pre ++ [p, s]) (pre.length + 1) h = (.ok p, h) := by simp [indexPred, Py.index]
  rw [Py.bind_ok h2]
  have h3 : Py.index (pre ++ [p, s]) (pre.length + 1 + 1) h = (.error .indexError, h) := by simp [Py.index]
  rw [Py.bind_error h3]

/-- **C14 (partial).** At every interior index the claim holds: `remove_stop_at` returns the stop at that
index, the stop list is the old one without it, every stop is linked to its predecessor, memoised values
agree with the new schedule, and only the `previous` of the following stop and this route's stop list
change. Missing: index 0 and the last index, where the claim is false. -/
theorem C14_remove_stop_at_partial (h : Heap) (r a s b : Nat) (pre suf : List Nat) (hc : Chained h.core r)
    (ha : CachesAgree E h r) (e : (h.core.route r).stops = pre ++ a :: s :: b :: suf) :
    ∃ h', removeStopAt r (pre.length + 1) h = (.ok s, h') ∧
      h'.core.route = Function.update h.core.route r { h.core.route r with stops := pre ++ a :: b :: suf } ∧
      h'.core.stop = Function.update h.core.stop b { h.core.stop b with previous := some a } ∧
      h'.core.pt = h.core.pt ∧ Chained h'.core r ∧ CachesAgree E h' r ∧ s ∉ (h'.core.route r).stops := by
  obtain ⟨ok1, ok2⟩ := afterRemove_ok (E := E) hc ha e
  refine ⟨_, removeStopAt_run e, ?_, ?_, by simp, ok1, ok2, ?_⟩
  · simp [afterRemove, Heap.setRoute, Heap.setStop]
  · simp [afterRemove, Heap.setRoute, Heap.setStop]
  · rw [afterRemove_stops]
    have hn := hc.nodup
    rw [e, List.nodup_append] at hn
    obtain ⟨_, h2, h3⟩ := hn
    intro hm
    simp only [List.nodup_cons, List.mem_cons, not_or] at h2
    rcases List.mem_append.1 hm with hm | hm
    · exact h3 s hm s (by simp) rfl
    · rcases List.mem_cons.1 hm with rfl | hm
      · exact h2.1.1 rfl
      · rcases List.mem_cons.1 hm with rfl | hm
        · exact h2.2.1.1 rfl
        · exact h2.2.1.2 hm

/-- The demo route has interior indices. -/
example : ∃ a s b pre suf, (demoHeap.core.route 2).stops = pre ++ a :: s :: b :: suf :=
  ⟨(demoHeap.core.route 2).stops.getD 1 0, (demoHeap.core.route 2).stops.getD 2 0, (demoHeap.core.route 2).stops.getD 3 0,
    (demoHeap.core.route 2).stops.take 1, (demoHeap.core.route 2).stops.drop 4, by decide +kernel⟩

end Jinete
