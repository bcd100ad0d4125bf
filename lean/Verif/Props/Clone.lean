import Verif.Props.RouteEdit
import Verif.Proofs.Separate

/-!
# C15, C16, C17: cloning routes
-/

set_option autoImplicit false

namespace Jinete

variable {E : Env}

theorem cloneRoute_run {h : Heap} {r : Nat} (hw : WellFormed h.core r) (desired : Nat) :
    ∃ r' h' pre suf fresh, cloneRoute E r desired h = (.ok r', h') ∧ CloneOf h h' r r' pre suf fresh ∧
      (pre.length = 0 ∨ 2 ≤ pre.length ∧ pre.length < desired) := by
  obtain ⟨r', idx, h', pre, suf, fresh, e, c, hl, h1, h2⟩ := cloneRouteIdx_run (E := E) hw desired
  refine ⟨r', h', pre, suf, fresh, ?_, c, by omega⟩
  unfold cloneRoute
  rw [Py.bind_ok e]
  rfl

/-! ## C15 -/

/-- **C15.** Cloning a well formed route, with any threshold, succeeds and gives a new well formed route of
the same vehicle with the same visits in the same order (positions, requested starts, trips picked up and
delivered), hence the same schedule and loads; if the memoised values of the original agree with its
schedule, so do those of the clone, and any sequence of time queries to stops of the clone is answered with
the schedule of the original. -/
theorem C15_clone_same_itinerary (h : Heap) (r desired : Nat) (hw : WellFormed h.core r) :
    ∃ r' h', cloneRoute E r desired h = (.ok r', h') ∧
      r' = h.core.nRoute ∧ WellFormed h'.core r' ∧
      (h'.core.route r').vehicle = (h.core.route r).vehicle ∧
      itinerary h'.core r' = itinerary h.core r ∧
      routeTimetable E h'.core r' = routeTimetable E h.core r ∧
      routeLoads E h'.core r' = routeLoads E h.core r ∧
      (CachesAgree E h r → CachesAgree E h' r' ∧
        ∀ qs : List (TimeQuery × Nat × Nat), (∀ x ∈ qs, (h'.core.route r').stops[x.2.1]? = some x.2.2) →
          ∃ answers h'', Py.mapEach qs (fun x => x.1.ask E x.2.2) h' = (.ok answers, h'') ∧
            List.Forall₂ (fun x a => ∃ tm, (routeTimetable E h.core r)[x.2.1]? = some tm ∧ a = x.1.answer tm)
              qs answers) := by
  obtain ⟨r', h', pre, suf, fresh, e, c, _⟩ := cloneRoute_run (E := E) hw desired
  have hi := c.itinerary hw
  have ht : routeTimetable E h'.core r' = routeTimetable E h.core r := by
    unfold routeTimetable; rw [hi, c.vehicle]
  refine ⟨r', h', e, c.new, c.wf, c.vehicle, hi, ht, by unfold routeLoads; rw [hi], fun ha => ?_⟩
  refine ⟨c.agree hw ha, fun qs hq => ?_⟩
  obtain ⟨answers, h'', e1, e2, _, _⟩ := C06_times_follow_schedule h' r' c.wf.toChained (c.agree hw ha) qs hq
  rw [ht] at e2
  exact ⟨answers, h'', e1, e2⟩

/-- The threshold 6 on the demo route gives a clone sharing five stops, threshold 4 one sharing none. -/
example : (cloneRouteIdx demoEnv 2 6 demoHeap).1 = .ok (3, 5) ∧ (cloneRouteIdx demoEnv 2 4 demoHeap).1 = .ok (3, 0) ∧
    WellFormed demoHeap.core 2 ∧ CachesAgree demoEnv demoHeap 2 :=
  ⟨by decide +kernel, by decide +kernel, demo_ok.2.1, demo_ok.2.2⟩

/-! ## C16 -/

/-- **C16.** Cloning changes no attribute and no memoised value of any existing stop, planned trip or
route. The stops of the clone are the first `n` stops of the original followed by new stops, where `n = 0`
or `2 ≤ n < desired`; every planned trip served by the clone has both its stops among the shared ones (and
is then the planned trip of the original) or both among the new ones (and is then itself new). With
`desired ≤ 2` nothing is shared. -/
theorem C16_clone_frame (h : Heap) (r desired : Nat) (hw : WellFormed h.core r) :
    ∃ r' h' pre suf fresh, cloneRoute E r desired h = (.ok r', h') ∧
      (∀ s, s < h.core.nStop → h'.core.stop s = h.core.stop s ∧ h'.arr s = h.arr s ∧ h'.dep s = h.dep s ∧
        h'.cap s = h.cap s ∧ h'.sfeas s = h.sfeas s) ∧
      (∀ p, p < h.core.nPt → h'.core.pt p = h.core.pt p ∧ h'.pfeas p = h.pfeas p) ∧
      (∀ x, x < h.core.nRoute → h'.core.route x = h.core.route x ∧ h'.rfeas x = h.rfeas x) ∧
      (h.core.route r).stops = pre ++ suf ∧ (h'.core.route r').stops = pre ++ fresh ∧
      (∀ s ∈ fresh, h.core.nStop ≤ s) ∧
      (pre.length = 0 ∨ 2 ≤ pre.length ∧ pre.length < desired) ∧
      (desired ≤ 2 → pre = []) ∧
      ∀ s ∈ (h'.core.route r').stops, ∀ p ∈ (h'.core.stop s).pickups,
        ∃ d, (h'.core.pt p).delivery = some d ∧
          (s ∈ pre ∧ d ∈ pre ∧ p < h.core.nPt ∨ s ∈ fresh ∧ d ∈ fresh ∧ h.core.nPt ≤ p) := by
  obtain ⟨r', h', pre, suf, fresh, e, c, hn⟩ := cloneRoute_run (E := E) hw desired
  refine ⟨r', h', pre, suf, fresh, e, fun s hs => ⟨c.stop s hs, c.caches s hs⟩, c.pt, fun x hx => c.route x ?_,
    c.old, c.stops, fun s hs => (c.freshStop s hs).1, hn, fun hd => ?_, ?_⟩
  · rw [c.new]; omega
  · have : pre.length = 0 := by omega
    exact List.length_eq_zero_iff.1 this
  · intro s hs p hp
    obtain ⟨P, S, eS⟩ := List.append_of_mem hs
    obtain ⟨_, _, d, hd, hdel, hpd⟩ := c.wf.pick P s S eS p hp
    have hdm : d ∈ (h'.core.route r').stops := by rw [eS]; simp [hd]
    have oldp : ∀ x ∈ pre, ∀ p, p ∈ (h'.core.stop x).pickups ∨ p ∈ (h'.core.stop x).deliveries → p < h.core.nPt := by
      intro x hx p hp
      have hxo : x ∈ (h.core.route r).stops := by rw [c.old]; simp [hx]
      rw [c.stop x (hw.alloc x hxo)] at hp
      obtain ⟨P, S, eS⟩ := List.append_of_mem hxo
      rcases hp with hp | hp
      · exact (hw.pick P x S eS p hp).1
      · exact (hw.drop P x S eS p hp).1
    have newp : ∀ x ∈ fresh, ∀ p, p ∈ (h'.core.stop x).pickups ∨ p ∈ (h'.core.stop x).deliveries → h.core.nPt ≤ p :=
      fun x hx p hp => (c.freshPt x hx p (List.mem_append.2 hp)).1
    refine ⟨d, hdel, ?_⟩
    rw [c.stops, List.mem_append] at hs hdm
    rcases hs with hs | hs <;> rcases hdm with hd' | hd'
    · exact .inl ⟨hs, hd', oldp s hs p (.inl hp)⟩
    · have := oldp s hs p (.inl hp); have := newp d hd' p (.inr hpd); omega
    · have := newp s hs p (.inl hp); have := oldp d hd' p (.inr hpd); omega
    · exact .inr ⟨hs, hd', newp s hs p (.inl hp)⟩

/-! ## C17 -/

/-- One modification of the original route `r` (or of objects outside the stops `A` and planned trips `B`
of the clone), by the methods a caller can use. The heap afterwards is the one left behind whether or not
the method raises. -/
inductive Modify (E : Env) (A B : List Nat) (r : Nat) (h : Heap) : Heap → Prop
  | newStop (v : Nat) (pos : Pos) (prev : Option Nat) (st : Option ℚ) (hp : ∀ p, prev = some p → p < h.core.nStop ∧ p ∉ A) :
      Modify E A B r h (newStop v pos prev st h).2
  | newPlannedTrip (v t : Nat) (pu de : Option Nat) (h1 : ∀ s, pu = some s → s < h.core.nStop ∧ s ∉ A)
      (h2 : ∀ s, de = some s → s < h.core.nStop ∧ s ∉ A) : Modify E A B r h (newPlannedTrip E v t pu de h).2
  | setStarting (s : Nat) (v : ℚ) (hs : s < h.core.nStop ∧ s ∉ A) : Modify E A B r h (setStarting s v h).2
  | insertStop (s : Nat) (hs : s < h.core.nStop ∧ s ∉ A) : Modify E A B r h (insertStop r s h).2
  | removeStopAt (i : Nat) : Modify E A B r h (removeStopAt r i h).2
  | appendPlannedTrip (p : Nat) (hp : p < h.core.nPt ∧ p ∉ B) : Modify E A B r h (appendPlannedTrip E r p h).2
  | removeTrip (t : Nat) : Modify E A B r h (removeTrip E r t h).2
  | flush : Modify E A B r h (flushRoute r h).2

/-- Any number of modifications. -/
inductive Modifies (E : Env) (A B : List Nat) (r : Nat) : Heap → Heap → Prop
  | refl (h : Heap) : Modifies E A B r h h
  | step {h h1 h2 : Heap} (a : Modify E A B r h h1) (b : Modifies E A B r h1 h2) : Modifies E A B r h h2

/-- The planned trips served at stops `A`. -/
def servedAt (c : Core) (A : List Nat) : List Nat := A.flatMap fun s => (c.stop s).pickups ++ (c.stop s).deliveries

/-- The full claim C17: after cloning, no modification of the original changes the schedule reported by
the stops of the clone. -/
def CloneIndependent (E : Env) : Prop :=
  ∀ (h : Heap) (r desired r' : Nat) (h' h'' : Heap), WellFormed h.core r → CachesAgree E h r →
    cloneRoute E r desired h = (.ok r', h') →
    (∃ s ∈ (h.core.route r).stops, ∃ v, h'' = (setStarting s v h').2) →
    ∀ s ∈ (h'.core.route r').stops, ∀ q : TimeQuery, (q.ask E s h'').1 = (q.ask E s h').1

/-- C17 is false: with a shared prefix, postponing a stop of the original postpones the clone's. -/
theorem C17_clone_not_independent : ¬ CloneIndependent demoEnv := by
  intro hp
  have := hp demoHeap 2 6 3 (cloneRoute demoEnv 2 6 demoHeap).2
    (setStarting ((demoHeap.core.route 2).stops.getD 1 0) 500 (cloneRoute demoEnv 2 6 demoHeap).2).2
    demo_ok.2.1 demo_ok.2.2 (Prod.ext (by decide +kernel) rfl)
    ⟨(demoHeap.core.route 2).stops.getD 1 0, by decide +kernel, 500, rfl⟩
    ((demoHeap.core.route 2).stops.getD 1 0) (by decide +kernel) .starting
  revert this
  decide +kernel

theorem Modify.safe {A B : List Nat} {r q : Nat} {h h' : Heap} (m : Modify E A B r h h') (ha : Apart A B r q h) :
    Kept A B q h h' ∧ Apart A B r q h' := by
  cases m with
  | newStop v pos prev st hp => exact ⟨(newStop_safe ha v pos prev st hp).1, (newStop_safe ha v pos prev st hp).2.1⟩
  | newPlannedTrip v t pu de h1 h2 =>
    exact ⟨(newPlannedTrip_safe ha v t pu de h1 h2).1, (newPlannedTrip_safe ha v t pu de h1 h2).2.1⟩
  | setStarting s v hs => exact ⟨(setStarting_safe ha hs v).1, (setStarting_safe ha hs v).2.1⟩
  | insertStop s hs => exact ⟨(insertStop_safe ha hs).1, (insertStop_safe ha hs).2.1⟩
  | removeStopAt i => exact ⟨(removeStopAt_safe ha i).1, (removeStopAt_safe ha i).2.1⟩
  | appendPlannedTrip p hp => exact ⟨(appendPlannedTrip_safe ha hp.1 hp.2).1, (appendPlannedTrip_safe ha hp.1 hp.2).2.1⟩
  | removeTrip t => exact ⟨(removeTrip_safe ha t).1, (removeTrip_safe ha t).2.1⟩
  | flush => exact ⟨(flushRoute_safe ha).1, (flushRoute_safe ha).2.1⟩

theorem Modifies.safe {A B : List Nat} {r q : Nat} {h h' : Heap} (m : Modifies E A B r h h') (ha : Apart A B r q h) :
    Kept A B q h h' := by
  induction m with
  | refl h => exact Kept.refl h
  | step a _ ih => exact (a.safe ha).1.trans (ih (a.safe ha).2)

/-- Objects only refer to created stops (true of every heap built by the modelled methods). -/
def Closed (c : Core) : Prop :=
  (∀ x, x < c.nStop → ∀ p, (c.stop x).previous = some p → p < c.nStop) ∧
  (∀ p, p < c.nPt → (∀ s, (c.pt p).pickup = some s → s < c.nStop) ∧ (∀ s, (c.pt p).delivery = some s → s < c.nStop))

/-- **C17 (partial).** A clone made with threshold at most 2 (the default is 0) shares no stop with the original, and
afterwards *no* sequence of modifications of the original route (creating stops and planned trips,
postponing, inserting and removing stops, appending and removing trips, flushing; successful or raising)
changes the clone: it remains well formed with the same itinerary and agreeing memoised values, and any
sequence of time queries to its stops is answered with the schedule the original had when cloned.
Missing: thresholds above 2, for which the claim is false. -/
theorem C17_clone_independent_partial (h : Heap) (r desired : Nat) (hw : WellFormed h.core r) (ha : CachesAgree E h r)
    (hcl : Closed h.core) (hd : desired ≤ 2) :
    ∃ r' h', cloneRoute E r desired h = (.ok r', h') ∧
      (∀ s ∈ (h.core.route r).stops, s ∉ (h'.core.route r').stops) ∧
      ∀ h'', Modifies E (h'.core.route r').stops (servedAt h'.core (h'.core.route r').stops) r h' h'' →
        WellFormed h''.core r' ∧ itinerary h''.core r' = itinerary h.core r ∧ CachesAgree E h'' r' ∧
        ∀ qs : List (TimeQuery × Nat × Nat), (∀ x ∈ qs, (h''.core.route r').stops[x.2.1]? = some x.2.2) →
          ∃ answers h3, Py.mapEach qs (fun x => x.1.ask E x.2.2) h'' = (.ok answers, h3) ∧
            List.Forall₂ (fun x a => ∃ tm, (routeTimetable E h.core r)[x.2.1]? = some tm ∧ a = x.1.answer tm)
              qs answers := by
  obtain ⟨r', h', pre, suf, fresh, e, c, hn⟩ := cloneRoute_run (E := E) hw desired
  have hpre : pre = [] := List.length_eq_zero_iff.1 (by omega)
  subst hpre
  have hst : (h'.core.route r').stops = fresh := by rw [c.stops]; rfl
  have hne : r ≠ r' := by rw [c.new]; exact Nat.ne_of_lt hw.exists_
  have hnew : ∀ s ∈ (h'.core.route r').stops, h.core.nStop ≤ s := fun s hs => (c.freshStop s (hst ▸ hs)).1
  have hsep : ∀ s, s < h.core.nStop → s ∉ (h'.core.route r').stops := fun s hs hm => by have := hnew s hm; omega
  refine ⟨r', h', e, fun s hs => hsep s (hw.alloc s hs), ?_⟩
  set A := (h'.core.route r').stops with hA
  set B := servedAt h'.core A with hB
  have hBnew : ∀ p ∈ B, h.core.nPt ≤ p ∧ p < h'.core.nPt := by
    intro p hp
    obtain ⟨s, hs, hps⟩ := List.mem_flatMap.1 hp
    refine ⟨(c.freshPt s (hst ▸ hs) p hps).1, ?_⟩
    obtain ⟨P, S, eS⟩ := List.append_of_mem hs
    rcases List.mem_append.1 hps with hps | hps
    · exact (c.wf.pick P s S eS p hps).1
    · exact (c.wf.drop P s S eS p hps).1
  have hapart : Apart A B r r' h' := by
    have hout : ∀ x, x < h'.core.nStop → x ∉ A → x < h.core.nStop := by
      intro x hx hxA
      by_contra hcon
      exact hxA (by rw [hst]; exact c.coverStop x (by omega) hx)
    have houtp : ∀ p, p < h'.core.nPt → p ∉ B → p < h.core.nPt := by
      intro p hp hpB
      by_contra hcon
      obtain ⟨x, hx, hpx⟩ := c.coverPt p (by omega) hp
      exact hpB (List.mem_flatMap.2 ⟨x, by rw [hst]; exact hx, List.mem_append_right _ hpx⟩)
    have hin : ∀ s, s < h.core.nStop → s < h'.core.nStop ∧ s ∉ A := fun s hs => ⟨lt_of_lt_of_le hs c.nStop, hsep s hs⟩
    refine ⟨hne, c.wf.exists_, c.wf.alloc, fun p hp => (hBnew p hp).2, ?_, ?_, ?_, ?_⟩
    · rw [(c.route r hne).1]
      exact fun s hs => hin s (hw.alloc s hs)
    · intro x hx hxA p hp
      rw [c.stop x (hout x hx hxA)] at hp
      exact hin p (hcl.1 x (hout x hx hxA) p hp)
    · intro p hp hpB s hs
      rw [(c.pt p (houtp p hp hpB)).1] at hs
      exact hin s ((hcl.2 p (houtp p hp hpB)).1 s hs)
    · intro p hp hpB s hs
      rw [(c.pt p (houtp p hp hpB)).1] at hs
      exact hin s ((hcl.2 p (houtp p hp hpB)).2 s hs)
  intro h'' hm
  have k := hm.safe hapart
  have hpt : ∀ s ∈ A, ∀ p ∈ (h'.core.stop s).pickups ++ (h'.core.stop s).deliveries, h''.core.pt p = h'.core.pt p :=
    fun s hs p hp => k.pt p (List.mem_flatMap.2 ⟨s, hs, hp⟩)
  have hwf : WellFormed h''.core r' := by
    refine c.wf.congr k.route k.nStop k.nPt k.nRoute (fun s hs => by rw [k.stop s hs]; simp) ?_
    intro p hp
    obtain ⟨s, hs, hps⟩ := List.mem_flatMap.1 hp
    exact hpt s hs p (List.mem_append_left _ hps)
  have hit : itinerary h''.core r' = itinerary h'.core r' := by
    unfold itinerary
    rw [k.route]
    apply List.map_congr_left
    intro s hs
    unfold visitOf
    rw [k.stop s hs]
    congr 1
    · apply List.map_congr_left
      intro p hp
      rw [hpt s hs p (List.mem_append_left _ hp)]
    · apply List.map_congr_left
      intro p hp
      rw [hpt s hs p (List.mem_append_right _ hp)]
  have hag : CachesAgree E h'' r' := by
    intro i s x q hs hx hq
    rw [k.route] at hs
    unfold routeTimetable at hx
    unfold routeLoads at hq
    rw [hit, k.route] at hx
    rw [hit] at hq
    have hm := List.mem_of_getElem? hs
    rw [k.arr s hm, k.dep s hm, k.cap s hm]
    exact c.agree hw ha i s x q hs hx hq
  have hall : itinerary h''.core r' = itinerary h.core r := hit.trans (c.itinerary hw)
  refine ⟨hwf, hall, hag, fun qs hq => ?_⟩
  obtain ⟨answers, h3, e1, e2, _, _⟩ := C06_times_follow_schedule h'' r' hwf.toChained hag qs hq
  have ht : routeTimetable E h''.core r' = routeTimetable E h.core r := by
    unfold routeTimetable; rw [hall, k.route, c.vehicle]
  rw [ht] at e2
  exact ⟨answers, h3, e1, e2⟩

/-- The demo heap is closed, and modifications of its route 2 after cloning exist that matter. -/
example : Closed demoHeap.core ∧
    (removeTrip demoEnv 2 0 (cloneRoute demoEnv 2 0 demoHeap).2).1 = .ok () ∧
    itinerary (removeTrip demoEnv 2 0 (cloneRoute demoEnv 2 0 demoHeap).2).2.core 2 ≠ itinerary demoHeap.core 2 := by
  refine ⟨⟨?_, ?_⟩, by decide +kernel, by decide +kernel⟩
  · have : ∀ x < demoHeap.core.nStop, ∀ p ∈ (demoHeap.core.stop x).previous, p < demoHeap.core.nStop := by decide +kernel
    exact fun x hx p hp => this x hx p hp
  · have : ∀ x < demoHeap.core.nPt, (∀ p ∈ (demoHeap.core.pt x).pickup, p < demoHeap.core.nStop) ∧
        (∀ p ∈ (demoHeap.core.pt x).delivery, p < demoHeap.core.nStop) := by decide +kernel
    exact fun x hx => ⟨fun s hs => (this x hx).1 s hs, fun s hs => (this x hx).2 s hs⟩

end Jinete
