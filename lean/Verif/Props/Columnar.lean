import Verif.Proofs.Report
import Verif.Proofs.Columns
import Verif.Proofs.Silent
import Verif.Props.Storer
import Verif.Props.File

/-!
# C87, C88, C89: the columnar report
-/

set_option autoImplicit false

namespace Jinete

variable {E : Env}

/-! ## C87 -/

/-- The routes a report is about: all, or those that serve a trip. -/
def shownRoutes (c : Core) (removeEmpty : Bool) (routes : List Nat) : List Nat :=
  if removeEmpty then routes.filter fun r => decide ((itinerary c r).flatMap Visit.picks ≠ []) else routes

/-- The report shows the planning `routes` of a job. -/
structure ShowsPlan (E : Env) (ident vehicleIdent : Nat → Text) (h : Heap) (k : Objective) (removeEmpty : Bool) (job routes : List Nat)
    (x : Overview) : Prop where
  size : x.count = (shownRoutes h.core removeEmpty routes).length
  rows : List.Forall₂ (fun r rows => ShowsRoute E ident vehicleIdent (h.core.route r).vehicle (itinerary h.core r) rows)
    (shownRoutes h.core removeEmpty routes) x.routes
  coverage : x.coverage = ((coveredTrips E h.core job routes).length : ℚ) / job.length
  objective : x.objective = k
  value : x.value = planningValue E k (routes.map (planOf E h.core))
  feasible : x.feasible = true ↔ ∀ r ∈ routes, SaysFeasible E h r

/-- The full claim C87: a report can be made of every planning of sound routes, and it shows the planning. -/
def EveryPlanReported (E : Env) : Prop :=
  ∀ (ident vehicleIdent : Nat → Text) (uuid : Text) (seconds : ℚ) (k : Objective) (removeEmpty : Bool) (job routes : List Nat) (h : Heap),
    job.Nodup → (∀ r ∈ routes, Sound E h r) → (∀ r ∈ routes, ∀ t ∈ tripsOf h.core r, t ∈ job) →
    ∃ x h', columnarReport E ident vehicleIdent uuid seconds k removeEmpty job routes h = (.ok x, h') ∧
      ShowsPlan E ident vehicleIdent h k removeEmpty job routes x

theorem shownRoutes_eq (c : Core) (removeEmpty : Bool) (routes : List Nat) :
    (if removeEmpty then planningLoadedRoutes c routes else routes) = shownRoutes c removeEmpty routes := by
  unfold shownRoutes planningLoadedRoutes
  cases removeEmpty with
  | false => rfl
  | true =>
    simp only [if_true]
    refine List.filter_congr fun r _ => ?_
    rw [routeLoaded, picks_eq, Bool.eq_iff_iff]
    simp [routeTrips]

theorem Silent.walkBack {f : Nat → M ℚ} (hf : ∀ s, Silent (f s)) (u : Option Nat) (n : Nat) : ∀ (s : Option Nat) (a : ℚ), Silent (walkBack f u n s a) := by
  induction n with
  | zero => exact fun _ _ => raise _
  | succ n ih => exact fun s a => ite (pure _) (bind (unwrap _ _) fun x => bind (hf x) fun v => bind read fun h => ih _ _)

theorem Silent.columnarReport (E : Env) (ident vehicleIdent : Nat → Text) (uuid : Text) (seconds : ℚ) (k : Objective) (removeEmpty : Bool)
    (job routes : List Nat) : Silent (columnarReport E ident vehicleIdent uuid seconds k removeEmpty job routes) := by
  have hw : ∀ p, Silent (ptWaitingTime E p) := fun p => bind read fun h => walkBack (waitingTime E) _ _ _ _
  have ht : ∀ p, Silent (ptTransitTime E p) := fun p => bind read fun h => walkBack (transitTime E) _ _ _ _
  have hl : ∀ p, Silent (ptLoadTime E p) := fun p => bind (ptDelivery p) fun _ => bind (ptPickup p) fun _ => bind read fun _ => pure _
  have hr : ∀ p, Silent (tripRow E ident p) := fun p => bind read fun _ => bind (hw p) fun _ => bind (ht p) fun _ => bind (hl p) fun _ =>
    bind (ptDuration E p) fun _ => bind (pickupTime E p) fun _ => bind (deliveryTime E p) fun _ => pure _
  have hs : ∀ s, Silent (stopRow E ident s) := fun s => bind read fun _ => bind (waitingTime E s) fun _ => bind (transitTime E s) fun _ =>
    bind (departure E s) fun _ => bind (capacity E s) fun _ => pure _
  have hrr : ∀ r, Silent (routeRows E ident vehicleIdent r) := fun r => bind read fun _ => bind (mapEach hr _) fun _ => bind (mapEach hs _) fun _ => pure _
  exact bind read fun _ => bind (mapEach hrr _) fun _ => bind (coverageRate E _ _) fun _ => bind (objectivePlanning E _ _) fun _ =>
    bind (planningFeasible E _) fun _ => pure _

/-- The report depends on attributes and verdicts only, not on what was memoised. -/
theorem columnarReport_same (hE : EnvOK E) (h : Heap) (ident vehicleIdent : Nat → Text) (uuid : Text) (seconds : ℚ)
    (k : Objective) (removeEmpty : Bool) (job routes : List Nat) (hjob : job.Nodup) (hjob0 : job ≠ []) (hne : routes ≠ [])
    (hs : ∀ r ∈ routes, Sound E h r) (hsub : ∀ r ∈ routes, ∀ t ∈ tripsOf h.core r, t ∈ job) :
    ∃ x, ShowsPlan E ident vehicleIdent h k removeEmpty job routes x ∧
      ∀ h2 : Heap, h2.core = h.core → (∀ r ∈ routes, Sound E h2 r) → (∀ r ∈ routes, SaysFeasible E h2 r ↔ SaysFeasible E h r) →
        ∃ h', columnarReport E ident vehicleIdent uuid seconds k removeEmpty job routes h2 = (.ok x, h') ∧ OnlyMemos h2 h' ∧
          (∀ r ∈ routes, Sound E h' r) ∧ ∀ r ∈ routes, SaysFeasible E h' r ↔ SaysFeasible E h r := by
  have hsh : ∀ r ∈ shownRoutes h.core removeEmpty routes, r ∈ routes := by
    intro r hr
    unfold shownRoutes at hr
    split at hr
    · exact (List.mem_filter.1 hr).1
    · exact hr
  obtain ⟨rows, hrows, shows⟩ := reads_each (E := E) (c := h.core) (L := allStops h.core routes) (l := shownRoutes h.core removeEmpty routes)
    (f := routeRows E ident vehicleIdent)
    (P := fun r rows => ShowsRoute E ident vehicleIdent (h.core.route r).vehicle (itinerary h.core r) rows) (fun r hr => by
      obtain ⟨x, hx, sx⟩ := (hs r (hsh r hr)).1.routeRows_reads hE ident vehicleIdent
      exact ⟨x, hx.mono fun s hs' => List.mem_flatMap.2 ⟨r, hsh r hr, hs'⟩, sx⟩)
  refine ⟨⟨uuid, (shownRoutes h.core removeEmpty routes).length, rows, seconds, ((coveredTrips E h.core job routes).length : ℚ) / job.length, k,
    planningValue E k (routes.map (planOf E h.core)), routes.all (effR E h)⟩, ⟨rfl, shows, rfl, rfl, rfl, ?_⟩, ?_⟩
  · simp only [List.all_eq_true]
    exact forall₂_congr fun r hr => (saysFeasible_iff hE (hs r hr)).symm
  intro h2 hc hs2 hv
  have heff2 : ∀ r ∈ routes, effR E h2 r = effR E h r := by
    intro r hr
    have := hv r hr
    rw [saysFeasible_iff hE (hs r hr), saysFeasible_iff hE (hs2 r hr)] at this
    exact Bool.eq_iff_iff.2 this
  have L2 : allStops h2.core routes = allStops h.core routes := by rw [hc]
  obtain ⟨h1, e1, g1⟩ := hrows h2 hc (L2 ▸ Sound.coh hs2)
  have hs1 : ∀ r ∈ routes, Sound E h1 r := fun r hr => (hs2 r hr).grows g1.toV
  have hc1 : h1.core = h.core := g1.core.trans hc
  obtain ⟨q, e2, hq, _⟩ := C47_coverage_rate (E := E) h1 job routes hjob hjob0 (by rw [hc1]; exact hsub)
  obtain ⟨h3, e3, g3⟩ := planningValue_reads (E := E) k (fun r hr => (hs1 r hr).1) h1 rfl (Sound.coh hs1)
  have hs3 : ∀ r ∈ routes, Sound E h3 r := fun r hr => (hs1 r hr).grows g3.toV
  obtain ⟨h4, e4, g4⟩ := planningFeasible_run hE hne hs3
  rw [hc1] at hq e3
  have heff : ∀ r ∈ routes, effR E h3 r = effR E h r := fun r hr => ((g3.toV.effR r).trans (g1.toV.effR r)).trans (heff2 r hr)
  have hall : routes.all (effR E h3) = routes.all (effR E h) := by
    rw [Bool.eq_iff_iff]
    simp only [List.all_eq_true]
    exact forall₂_congr fun r hr => by rw [heff r hr]
  have hrun : columnarReport E ident vehicleIdent uuid seconds k removeEmpty job routes h2 =
      (.ok ⟨uuid, (shownRoutes h.core removeEmpty routes).length, rows, seconds, ((coveredTrips E h.core job routes).length : ℚ) / job.length, k,
        planningValue E k (routes.map (planOf E h.core)), routes.all (effR E h)⟩, h4) := by
    unfold columnarReport
    rw [Py.read_bind]
    simp only [shownRoutes_eq, hc]
    rw [Py.bind_ok e1, Py.bind_ok e2, Py.bind_ok e3, Py.bind_ok e4, hq, hall]
    rfl
  refine ⟨h4, hrun, (Silent.columnarReport E ident vehicleIdent uuid seconds k removeEmpty job routes).ok hrun, fun r hr => (hs3 r hr).grows g4, fun r hr => ?_⟩
  rw [saysFeasible_iff hE (hs r hr), saysFeasible_iff hE ((hs3 r hr).grows g4), g4.effR, heff r hr]

/-- **C87, what holds.** For a planning with at least one route, all well formed with agreeing memoised times, that serves trips
of a job with at least one trip: the report is made, it changes no attribute and nothing routes say about themselves, and what it shows is the schedule:
the vehicles, the stages of every tour with the times and loads that follow from the sequence of visits, the rides with their
times on board, the coverage, the objective value and the verdict of the planning. Missing: plannings without routes and jobs
without trips, see `C87_not_every_plan`. -/
theorem C87_report_shows_the_schedule_partial (hE : EnvOK E) (h : Heap) (ident vehicleIdent : Nat → Text) (uuid : Text) (seconds : ℚ)
    (k : Objective) (removeEmpty : Bool) (job routes : List Nat) (hjob : job.Nodup) (hjob0 : job ≠ []) (hne : routes ≠ [])
    (hs : ∀ r ∈ routes, Sound E h r) (hsub : ∀ r ∈ routes, ∀ t ∈ tripsOf h.core r, t ∈ job) :
    ∃ x h', columnarReport E ident vehicleIdent uuid seconds k removeEmpty job routes h = (.ok x, h') ∧ OnlyMemos h h' ∧
      (∀ r ∈ routes, Sound E h' r) ∧ (∀ r ∈ routes, SaysFeasible E h' r ↔ SaysFeasible E h r) ∧
      ShowsPlan E ident vehicleIdent h k removeEmpty job routes x := by
  obtain ⟨x, hx, H⟩ := columnarReport_same hE h ident vehicleIdent uuid seconds k removeEmpty job routes hjob hjob0 hne hs hsub
  obtain ⟨h', e, om, hs', hv⟩ := H h rfl hs fun _ _ => Iff.rfl
  exact ⟨x, h', e, om, hs', hv, hx⟩

/-- **C87, again.** Making the report a second time gives the same report. -/
theorem C87_report_repeats (hE : EnvOK E) (h : Heap) (ident vehicleIdent : Nat → Text) (uuid : Text) (seconds : ℚ)
    (k : Objective) (removeEmpty : Bool) (job routes : List Nat) (hjob : job.Nodup) (hjob0 : job ≠ []) (hne : routes ≠ [])
    (hs : ∀ r ∈ routes, Sound E h r) (hsub : ∀ r ∈ routes, ∀ t ∈ tripsOf h.core r, t ∈ job) {x y : Overview} {h' h'' : Heap}
    (e : columnarReport E ident vehicleIdent uuid seconds k removeEmpty job routes h = (.ok x, h'))
    (e' : columnarReport E ident vehicleIdent uuid seconds k removeEmpty job routes h' = (.ok y, h'')) : y = x := by
  obtain ⟨z, _, H⟩ := columnarReport_same hE h ident vehicleIdent uuid seconds k removeEmpty job routes hjob hjob0 hne hs hsub
  obtain ⟨h1, e1, om, hs1, hv1⟩ := H h rfl hs fun _ _ => Iff.rfl
  have a := e1.symm.trans e
  cases a
  obtain ⟨h2, e2, _⟩ := H _ om.core hs1 hv1
  have b := e2.symm.trans e'
  cases b
  rfl

/-- If no verdict was memoised before, the report says `True` exactly when every tour meets the routing constraints. -/
theorem C87_reported_verdict (hE : EnvOK E) {h : Heap} {ident vehicleIdent : Nat → Text} {k : Objective} {removeEmpty : Bool}
    {job routes : List Nat} {x : Overview} (hx : ShowsPlan E ident vehicleIdent h k removeEmpty job routes x)
    (hs : ∀ r ∈ routes, Sound E h r) (hn : ∀ r ∈ routes, NoVerdicts h r) :
    x.feasible = true ↔ ∀ r ∈ routes, FeasibleItinerary E (E.vehicle (h.core.route r).vehicle) (itinerary h.core r) := by
  rw [hx.feasible]
  refine forall₂_congr fun r hr => ?_
  obtain ⟨b, h', e, hb, _⟩ := C18_feasible_iff_constraints hE h r (hs r hr).1 (hs r hr).2 (hn r hr)
  unfold SaysFeasible
  rw [e, ← hb]
  simp

/-- The stages of a tour are its visits, with the timetable and the loads of the specification of itineraries. -/
theorem C87_stages (veh : Vehicle) (l : List Visit) : (vehicleStages E veh l).map Stage.visit = l ∧
    (vehicleStages E veh l).map Stage.tm = vehicleTimetable E veh l ∧ (vehicleStages E veh l).map Stage.load = loads E 0 l :=
  ⟨(stages_timetable _ _ _ l).2.2, (stages_timetable _ _ _ l).1, (stages_timetable _ _ _ l).2.1⟩

/-- **C87 is false of the code**: a job without trips has no coverage rate, and a planning without routes no verdict. Of a
planning of sound routes the report raises exactly then. -/
theorem C87_raises_iff (hE : EnvOK E) (h : Heap) (ident vehicleIdent : Nat → Text) (uuid : Text) (seconds : ℚ) (k : Objective)
    (removeEmpty : Bool) (job routes : List Nat) (hjob : job.Nodup) (hs : ∀ r ∈ routes, Sound E h r)
    (hsub : ∀ r ∈ routes, ∀ t ∈ tripsOf h.core r, t ∈ job) :
    ((columnarReport E ident vehicleIdent uuid seconds k removeEmpty job routes h).1 = .error .zeroDivision ↔ job = []) ∧
    ((columnarReport E ident vehicleIdent uuid seconds k removeEmpty job routes h).1 = .error .typeError ↔ job ≠ [] ∧ routes = []) ∧
    ((∃ x, (columnarReport E ident vehicleIdent uuid seconds k removeEmpty job routes h).1 = .ok x) ↔ job ≠ [] ∧ routes ≠ []) := by
  by_cases hj : job = []
  · have hsh : ∀ r ∈ shownRoutes h.core removeEmpty routes, r ∈ routes := by
      intro r hr
      unfold shownRoutes at hr
      split at hr
      · exact (List.mem_filter.1 hr).1
      · exact hr
    obtain ⟨rows, hrows, _⟩ := reads_each (E := E) (c := h.core) (L := allStops h.core routes) (l := shownRoutes h.core removeEmpty routes)
      (f := routeRows E ident vehicleIdent) (P := fun _ _ => True) (fun r hr => by
        obtain ⟨x, hx, _⟩ := (hs r (hsh r hr)).1.routeRows_reads hE ident vehicleIdent
        exact ⟨x, hx.mono fun s hs' => List.mem_flatMap.2 ⟨r, hsh r hr, hs'⟩, trivial⟩)
    obtain ⟨h1, e1, _⟩ := hrows h rfl (Sound.coh hs)
    have : (columnarReport E ident vehicleIdent uuid seconds k removeEmpty job routes h).1 = .error .zeroDivision := by
      unfold columnarReport
      rw [Py.read_bind]
      simp only [shownRoutes_eq]
      rw [Py.bind_ok e1, Py.bind_error ((C47_undefined_iff_no_trips h1 job routes).1.2 hj)]
    rw [this]
    simp [hj]
  · by_cases hr : routes = []
    · subst hr
      have : (columnarReport E ident vehicleIdent uuid seconds k removeEmpty job [] h).1 = .error .typeError := by
        obtain ⟨q, e⟩ := (C47_undefined_iff_no_trips (E := E) h job []).2 hj
        unfold columnarReport
        rw [Py.read_bind]
        simp only [shownRoutes_eq]
        have h0 : shownRoutes h.core removeEmpty [] = [] := by cases removeEmpty <;> rfl
        rw [h0]
        rw [Py.bind_ok (show Py.mapEach [] (routeRows E ident vehicleIdent) h = (.ok [], h) from rfl), Py.bind_ok e]
        rfl
      rw [this]
      simp [hj]
    · obtain ⟨x, h', e, _⟩ := C87_report_shows_the_schedule_partial hE h ident vehicleIdent uuid seconds k removeEmpty job routes hjob hj hr hs hsub
      rw [e]
      simp [hj, hr]

theorem C87_not_every_plan (E : Env) : ¬ EveryPlanReported E := by
  intro hc
  obtain ⟨x, h', e, _⟩ := hc decimal decimal [] 0 .dialARide false [] [] demoHeap List.nodup_nil (by simp) (by simp)
  have : (columnarReport E decimal decimal [] 0 .dialARide false [] [] demoHeap).1 = .error .zeroDivision := rfl
  rw [e] at this
  cases this

/-- The report of the demonstration route: two rides, one of them interrupted by the other. -/
example : ∃ x h', columnarReport demoEnv decimal decimal [] 0 .dialARide false [0, 1, 5] [2] demoHeap = (.ok x, h') ∧
    ShowsPlan demoEnv decimal decimal demoHeap .dialARide false [0, 1, 5] [2] x := by
  obtain ⟨x, h', e, _, _, _, hx⟩ := C87_report_shows_the_schedule_partial demoEnv_ok demoHeap decimal decimal [] 0 .dialARide false [0, 1, 5] [2]
    (by decide) (by simp) (by simp) (by intro r hr; rw [List.mem_singleton.1 hr]; exact demo_ok.2) (by decide +kernel)
  exact ⟨x, h', e, hx⟩

example : (columnarReport demoEnv decimal decimal [] 0 .dialARide false [0, 1, 5] [2] demoHeap).1.toOption.map
    (fun x => (x.routes.map fun y => y.trips.map fun t => [t.pick, t.drop, t.duration, t.waiting, t.transit, t.load], x.coverage, x.value, x.feasible)) =
    some ([[[3, 26, 23, 15, 6, 1], [20, 22, 2, 0, 2, 2]]], 2 / 3, [2, -16], true) := by decide +kernel

/-! ## C88 -/

/-- The full claim C88: in a report, the time on board of a ride is the sum of its waiting and its driving time. -/
def RideTimesAddUp (E : Env) : Prop :=
  ∀ (ident vehicleIdent : Nat → Text) (h : Heap) (r : Nat) (x : RouteRows), Sound E h r → (routeRows E ident vehicleIdent r h).1 = .ok x →
    ∀ row ∈ x.trips, row.duration = row.waiting + row.transit

/-- **C88 is false of the code**: the time stops in between take for loading is in neither column. In the demonstration a ride
takes 23 time units, of which the report shows 15 as waiting and 6 as driving; the other 2 go to another passenger. -/
theorem C88_ride_times_do_not_add_up : ¬ RideTimesAddUp demoEnv := by
  intro hc
  have h1 : ((routeRows demoEnv decimal decimal 2 demoHeap).1.toOption.map fun x => x.trips.map fun y => (y.duration, y.waiting, y.transit)) =
      some [(23, 15, 6), (2, 0, 2)] := by decide +kernel
  cases e : (routeRows demoEnv decimal decimal 2 demoHeap).1 with
  | error _ => rw [e] at h1; cases h1
  | ok x =>
    have h2 := hc decimal decimal demoHeap 2 x demo_ok.2 e
    rw [e] at h1
    simp only [Except.toOption, Option.map_some, Option.some.injEq] at h1
    rcases hx : x.trips with _ | ⟨row, l⟩
    · rw [hx] at h1; cases h1
    · rw [hx] at h1
      simp only [List.map_cons, List.cons.injEq, Prod.mk.injEq] at h1
      have := h2 row (by rw [hx]; simp)
      rw [h1.1.1, h1.1.2.1, h1.1.2.2] at this
      norm_num at this

/-- **C88, what holds.** The time on board is the waiting and the driving time plus the loading time of the stops between pickup
and delivery. If nothing is loaded there, the two columns add up. Missing: stops in between that take time, see
`C88_ride_times_do_not_add_up`. -/
theorem C88_ride_times_partial {ident : Nat → Text} {veh : Vehicle} {l : List Visit} {t : Nat} {row : TripRow}
    (h : ShowsRide E ident (vehicleStages E veh l) t row) :
    row.duration = row.drop - row.pick ∧
    ∃ pre a mid b suf, l = pre ++ a :: (mid ++ b :: suf) ∧ t ∈ a.picks ∧ t ∈ b.drops ∧
      row.duration = row.waiting + row.transit + (mid.map fun v => v.loadTime E).sum ∧
      row.load = a.loadTime E + b.loadTime E ∧
      ((∀ v ∈ mid, v.loadTime E = 0) → row.duration = row.waiting + row.transit) := by
  obtain ⟨pre, a, mid, b, suf, e, ha, hb, hr⟩ := h
  refine ⟨by rw [hr.duration, hr.drop, hr.pick], pre.map Stage.visit, a.visit, mid.map Stage.visit, b.visit, suf.map Stage.visit, ?_, ha, hb, ?_, hr.load, ?_⟩
  · rw [← (C87_stages (E := E) veh l).1, e]
    simp
  · rw [hr.adds_up e, List.map_map]
    rfl
  · intro h0
    rw [hr.adds_up e, List.sum_eq_zero, add_zero]
    intro q hq
    obtain ⟨x, hx, rfl⟩ := List.mem_map.1 hq
    exact h0 _ (List.mem_map_of_mem hx)

theorem stages_rows {ident : Nat → Text} : ∀ (t : ℚ) (p : Pos) (q : ℚ) (l : List Visit) (rows : List StopRow),
    List.Forall₂ (ShowsStop E ident) (stages E t p q l) rows → ∀ (pre suf : List StopRow) (row : StopRow), rows = pre ++ row :: suf →
      row.departure = (pre.getLast?.elim t fun y => y.departure) + row.transit + row.waiting + row.load := by
  intro t p q l
  induction l generalizing t p q with
  | nil =>
    intro rows h pre suf row e
    cases h
    simp at e
  | cons v l ih =>
    intro rows h pre suf row e
    rw [stages] at h
    obtain ⟨y, ys, hy, hys, rfl⟩ := List.forall₂_cons_left_iff.1 h
    cases pre with
    | nil =>
      simp only [List.nil_append, List.cons.injEq] at e
      obtain ⟨rfl, rfl⟩ := e
      rw [hy.departure, hy.transit, hy.waiting, hy.load]
      simp only [Stage.wait, serve, List.getLast?_nil, Option.elim_none]
      ring
    | cons z pre =>
      simp only [List.cons_append, List.cons.injEq] at e
      obtain ⟨rfl, e⟩ := e
      rw [ih _ _ _ _ hys pre suf row e]
      rcases List.eq_nil_or_concat pre with rfl | ⟨pre', x, rfl⟩
      · simp [hy.departure]
      · simp [List.getLast?_cons, List.getLast?_append]

/-- **C88, stops.** The columns of the stops add up: each stop is left at the time the stop before is left (the first: the
earliest time of the vehicle) plus its driving, waiting and loading time. -/
theorem C88_stop_times_add_up {ident vehicleIdent : Nat → Text} {v : Nat} {l : List Visit} {x : RouteRows}
    (h : ShowsRoute E ident vehicleIdent v l x) (pre suf : List StopRow) (row : StopRow) (e : x.stops = pre ++ row :: suf) :
    row.departure = (pre.getLast?.elim x.earliest fun y => y.departure) + row.transit + row.waiting + row.load := by
  rw [h.earliest]
  exact stages_rows _ _ _ _ _ h.stops pre suf row e

/-! ## C89 -/

/-- **C89, numbers.** A number in a column is blanks and then the number rounded to the last digit shown (ties to even); it is
never narrower than the column; it differs from the exact one by at most half a unit of the last digit; larger numbers are not
shown as smaller ones; and there is only one way to round. -/
theorem C89_numbers_right_to_the_last_digit (w d : Nat) (q : ℚ) :
    ShowsNumber d q (formatFixed w d q) ∧ w ≤ (formatFixed w d q).length ∧
    (∀ v, RoundedTo d q v → |v - q| ≤ 1 / (2 * 10 ^ d) ∧ ∀ v', RoundedTo d q v' → v' = v) ∧
    (∀ q' v v', RoundedTo d q v → RoundedTo d q' v' → q ≤ q' → v ≤ v') := by
  refine ⟨formatFixed_shows w d q, ?_, ?_, fun q' v v' h h' hq => h.mono h' hq⟩
  · simp only [formatFixed, padLeft, List.length_append, List.length_replicate]
    omega
  · intro v hv
    refine ⟨?_, fun v' hv' => hv'.unique hv⟩
    rw [le_div_iff₀ (by positivity)]
    exact hv.nearest

theorem fixedDigits_char {d : Nat} {q : ℚ} {c : Char} (hc : c ∈ fixedDigits d q) : c.isDigit = true ∨ c = '.' := by
  unfold fixedDigits at hc
  simp only [List.mem_append] at hc
  rcases hc with hc | hc
  · exact .inl (decimal_isDigit hc)
  · split at hc
    · cases hc
    · simp only [List.mem_cons, padLeft, List.mem_append, List.mem_replicate] at hc
      rcases hc with rfl | ⟨_, rfl⟩ | hc
      · exact .inr rfl
      · exact .inl rfl
      · exact .inl (decimal_isDigit hc)

theorem isDigit_not_white {c : Char} (h : c.isDigit = true) : ¬ WhiteSpace c := by
  obtain ⟨h1, h2⟩ := digitChar_of_isDigit h
  rw [h2]
  generalize c.toNat - 48 = d at h1
  interval_cases d <;> (unfold WhiteSpace; decide)

theorem fixedDigits_ne_nil (d : Nat) (q : ℚ) : fixedDigits d q ≠ [] := by
  intro h
  unfold fixedDigits at h
  exact decimal_ne_nil _ (List.append_eq_nil_iff.1 h).1

/-- Characters of numbers. -/
def plainChar (c : Char) : Prop := c.isDigit = true ∨ c = '.' ∨ c = '-'

theorem signText_char {q : ℚ} {c : Char} (hc : c ∈ signText q) : c = '-' := by
  unfold signText at hc
  split at hc
  · simpa using hc
  · cases hc

theorem formatZeros_char {w d : Nat} {q : ℚ} {c : Char} (hc : c ∈ formatZeros w d q) : plainChar c := by
  simp only [formatZeros, padLeft, List.mem_append, List.mem_replicate] at hc
  rcases hc with hc | ⟨_, rfl⟩ | hc
  · exact .inr (.inr (signText_char hc))
  · exact .inl rfl
  · exact (fixedDigits_char hc).imp_right .inl

theorem plainChar.not_white {c : Char} (h : plainChar c) : ¬ WhiteSpace c := by
  rcases h with h | rfl | rfl
  · exact isDigit_not_white h
  · unfold WhiteSpace; decide
  · unfold WhiteSpace; decide

theorem plainChar.not_comma {c : Char} (h : plainChar c) : c ≠ ',' := by
  rcases h with h | rfl | rfl
  · rintro rfl; simp at h
  · decide
  · decide

/-- The word of a number in a column. -/
def fixedWord (d : Nat) (q : ℚ) : Text := signText q ++ fixedDigits d |q|

theorem fixedWord_number (d : Nat) (q : ℚ) : NumberWord d q (fixedWord d q) :=
  ⟨shownAs d q, by simpa [fixedWord] using shown_numberText d 0 q, shownAs_rounded d q⟩

theorem fixedWord_word (d : Nat) (q : ℚ) : IsWord (fixedWord d q) := by
  refine ⟨fun h => fixedDigits_ne_nil _ _ (List.append_eq_nil_iff.1 h).2, fun c hc => ?_⟩
  rcases List.mem_append.1 hc with hc | hc
  · exact plainChar.not_white (.inr (.inr (signText_char hc)))
  · exact plainChar.not_white ((fixedDigits_char hc).imp_right .inl)

/-- The word of a bound in a column. -/
def boundWord (d : Nat) : Bound → Text
  | .fin q => fixedWord d q
  | .inf => ['i', 'n', 'f']

theorem boundWord_bound (d : Nat) (b : Bound) : BoundWord d b (boundWord d b) := by
  cases b with
  | fin q => exact fixedWord_number d q
  | inf => rfl

theorem boundWord_word (d : Nat) (b : Bound) : IsWord (boundWord d b) := by
  cases b with
  | fin q => exact fixedWord_word d q
  | inf => exact ⟨by simp [boundWord], by simp only [boundWord]; unfold WhiteSpace; decide⟩

theorem formatBound_word (w d : Nat) (b : Bound) : ∃ n, formatBound w d b = List.replicate n ' ' ++ boundWord d b := by
  cases b with
  | fin q => exact ⟨_, rfl⟩
  | inf => exact ⟨_, rfl⟩

theorem posText_position (p : Pos) : PositionWord p (posText p) := by
  refine ⟨p.map (formatZeros 7 3), rfl, ?_, ?_⟩
  · rw [List.forall₂_map_right_iff]
    exact List.forall₂_same.2 fun q _ => ⟨shownAs 3 q, formatZeros_shows 7 3 q, shownAs_rounded 3 q⟩
  · intro x hx hc
    obtain ⟨q, _, rfl⟩ := List.mem_map.1 hx
    exact (formatZeros_char hc).not_comma rfl

theorem posText_word (p : Pos) : IsWord (posText p) := by
  refine ⟨by simp [posText], fun c hc => ?_⟩
  simp only [posText, List.cons_append, List.mem_cons, List.mem_append, List.not_mem_nil, or_false] at hc
  rcases hc with rfl | hc | rfl
  · unfold WhiteSpace; decide
  · rcases mem_joinWith hc with rfl | ⟨x, hx, hc⟩
    · unfold WhiteSpace; decide
    · obtain ⟨q, _, rfl⟩ := List.mem_map.1 hx
      exact (formatZeros_char hc).not_white
  · unfold WhiteSpace; decide

/-- **C89, positions.** The text of a position can be read back: between the parentheses, cut at the commas, are numbers the
loader reads, one per coordinate, each within 0.0005 of it. -/
theorem C89_positions_read_back (p : Pos) (hp : p ≠ []) :
    ∃ inner vs, posText p = ['('] ++ inner ++ [')'] ∧ (cut ',' inner).map pyFloat = vs.map some ∧
      List.Forall₂ (fun q v => |v - q| ≤ 1 / 2000) p vs := by
  refine ⟨joinWith ',' (p.map (formatZeros 7 3)), p.map (shownAs 3), rfl, ?_, ?_⟩
  · rw [cut_joinWith (by simpa using hp)]
    · rw [List.map_map, List.map_map]
      exact List.map_congr_left fun q _ => pyFloat_iff.2 (formatZeros_shows 7 3 q)
    · intro x hx hc
      obtain ⟨q, _, rfl⟩ := List.mem_map.1 hx
      exact (formatZeros_char hc).not_comma rfl
  · rw [List.forall₂_map_right_iff]
    refine List.forall₂_same.2 fun q _ => ?_
    have := ((C89_numbers_right_to_the_last_digit 0 3 q).2.2.1 _ (shownAs_rounded 3 q)).1
    norm_num at this ⊢
    exact this

/-- Words with the white space before them. -/
def lineText : List (Text × Text) → Text
  | [] => []
  | (b, w) :: l => b ++ w ++ lineText l

/-- White space and a word. -/
structure Piece (x : Text × Text) : Prop where
  white : ∀ c ∈ x.1, WhiteSpace c
  word : IsWord x.2

theorem lineText_words : ∀ (l : List (Text × Text)), (∀ x ∈ l, Piece x) → (∀ x ∈ l.tail, x.1 ≠ []) →
    WordsOf (lineText l) (l.map Prod.snd)
  | [], _, _ => .nil (by simp [lineText])
  | (b, w) :: l, h, ht => by
    refine .cons (h (b, w) (by simp)).1 (h (b, w) (by simp)).2.1 (h (b, w) (by simp)).2.2 ?_
      (lineText_words l (fun x hx => h x (by simp [hx])) (fun x hx => ht x (List.mem_of_mem_tail hx)))
    cases l with
    | nil => exact .inl rfl
    | cons y l =>
      obtain ⟨b', w'⟩ := y
      have hne := ht (b', w') (by simp)
      cases b' with
      | nil => exact absurd rfl hne
      | cons c u => exact .inr ⟨c, _, rfl, (h (c :: u, w') (by simp)).1 c (by simp)⟩

theorem white_blank {c : Char} (h : c = ' ') : WhiteSpace c := by subst h; unfold WhiteSpace; decide

theorem one_blank : ∀ c ∈ [' '], WhiteSpace c := fun _ h => white_blank (List.mem_singleton.1 h)

theorem all_blanks (n : Nat) : ∀ c ∈ ' ' :: List.replicate n ' ', WhiteSpace c := fun c h => white_blank (by
  rcases List.mem_cons.1 h with rfl | h
  · rfl
  · exact (List.mem_replicate.1 h).2)

theorem pad_blanks {tab : Text} (ht : ∀ c ∈ tab, WhiteSpace c) (n : Nat) : ∀ c ∈ List.replicate n ' ' ++ tab, WhiteSpace c := fun c h => by
  rcases List.mem_append.1 h with h | h
  · exact white_blank (List.mem_replicate.1 h).2
  · exact ht c h

theorem isWord_label (t : Text) (h : t ≠ [] ∧ ∀ c ∈ t, c.toNat ∈ [58, 68, 73, 76, 78, 80, 84, 87, 111, 116]) : IsWord t := by
  refine ⟨h.1, fun c hc hw => ?_⟩
  have := h.2 c hc
  unfold WhiteSpace at hw
  simp only [List.mem_cons, List.not_mem_nil, or_false] at this hw
  omega

/-- **C89, rides.** The line of a ride, cut into words, is: the identifier, origin and destination, the window, waiting, driving
and loading time, time on board, times of pickup and delivery, and the load, each after its label; the numbers are rounded to
one digit. So a program that splits the line at white space and reads the numbers gets what is shown. (The identifier and the
text of the load must be words; an empty tab, for which the columns would touch, is excluded.) -/
theorem C89_ride_line (str : ℚ → Text) (tab : Text) (x : TripRow) (ht : tab ≠ [] ∧ ∀ c ∈ tab, WhiteSpace c) (hi : IsWord x.ident)
    (hstr : IsWord (str x.capacity)) :
    ∃ po pd te tl wt nt lt tt tp td, splitWords (x.text str tab) =
        ["ID:".toList, x.ident, "P:".toList, po, "to".toList, pd, "TW:".toList, te, "to".toList, tl, "WT:".toList, wt, "NT:".toList, nt,
          "LT:".toList, lt, "TT:".toList, tt, "T:".toList, tp, "to".toList, td, "L:".toList, str x.capacity] ∧
      PositionWord x.origin po ∧ PositionWord x.destination pd ∧ NumberWord 1 x.earliest te ∧ BoundWord 1 x.latest tl ∧
      NumberWord 1 x.waiting wt ∧ NumberWord 1 x.transit nt ∧ NumberWord 1 x.load lt ∧ NumberWord 1 x.duration tt ∧
      NumberWord 1 x.pick tp ∧ NumberWord 1 x.drop td := by
  obtain ⟨n, hn⟩ := formatBound_word 7 1 x.latest
  refine ⟨posText x.origin, posText x.destination, fixedWord 1 x.earliest, boundWord 1 x.latest, fixedWord 1 x.waiting, fixedWord 1 x.transit,
    fixedWord 1 x.load, fixedWord 1 x.duration, fixedWord 1 x.pick, fixedWord 1 x.drop, ?_, posText_position _, posText_position _,
    fixedWord_number _ _, boundWord_bound _ _, fixedWord_number _ _, fixedWord_number _ _, fixedWord_number _ _, fixedWord_number _ _,
    fixedWord_number _ _, fixedWord_number _ _⟩
  have e : x.text str tab = lineText [([], "ID:".toList), ([' '], x.ident), (List.replicate (5 - x.ident.length) ' ' ++ tab, "P:".toList),
      ([' '], posText x.origin), ([' '], "to".toList), ([' '], posText x.destination), (tab, "TW:".toList),
      (' ' :: List.replicate (7 - (fixedWord 1 x.earliest).length) ' ', fixedWord 1 x.earliest), ([' '], "to".toList),
      (' ' :: List.replicate n ' ', boundWord 1 x.latest), (tab, "WT:".toList),
      (' ' :: List.replicate (7 - (fixedWord 1 x.waiting).length) ' ', fixedWord 1 x.waiting), (tab, "NT:".toList),
      (' ' :: List.replicate (7 - (fixedWord 1 x.transit).length) ' ', fixedWord 1 x.transit), (tab, "LT:".toList),
      (' ' :: List.replicate (4 - (fixedWord 1 x.load).length) ' ', fixedWord 1 x.load), (tab, "TT:".toList),
      (' ' :: List.replicate (6 - (fixedWord 1 x.duration).length) ' ', fixedWord 1 x.duration), (tab, "T:".toList),
      (' ' :: List.replicate (7 - (fixedWord 1 x.pick).length) ' ', fixedWord 1 x.pick), ([' '], "to".toList),
      (' ' :: List.replicate (7 - (fixedWord 1 x.drop).length) ' ', fixedWord 1 x.drop), (tab, "L:".toList), ([' '], str x.capacity)] := by
    simp [TripRow.text, List.intercalate, lineText, padRight, hn, formatFixed, padLeft, fixedWord]
  rw [e]
  refine (lineText_words _ ?_ ?_).split
  · simp only [List.forall_mem_cons]
    refine ⟨⟨by simp, by show IsWord (String.toList _); exact isWord_label _ (by decide)⟩, ⟨one_blank, hi⟩, ⟨pad_blanks ht.2 _, by show IsWord (String.toList _); exact isWord_label _ (by decide)⟩, ⟨one_blank, posText_word _⟩,
      ⟨one_blank, by show IsWord (String.toList _); exact isWord_label _ (by decide)⟩, ⟨one_blank, posText_word _⟩, ⟨ht.2, by show IsWord (String.toList _); exact isWord_label _ (by decide)⟩, ⟨all_blanks _, fixedWord_word _ _⟩,
      ⟨one_blank, by show IsWord (String.toList _); exact isWord_label _ (by decide)⟩, ⟨all_blanks _, boundWord_word _ _⟩, ⟨ht.2, by show IsWord (String.toList _); exact isWord_label _ (by decide)⟩,
      ⟨all_blanks _, fixedWord_word _ _⟩, ⟨ht.2, by show IsWord (String.toList _); exact isWord_label _ (by decide)⟩, ⟨all_blanks _, fixedWord_word _ _⟩,
      ⟨ht.2, by show IsWord (String.toList _); exact isWord_label _ (by decide)⟩, ⟨all_blanks _, fixedWord_word _ _⟩, ⟨ht.2, by show IsWord (String.toList _); exact isWord_label _ (by decide)⟩,
      ⟨all_blanks _, fixedWord_word _ _⟩, ⟨ht.2, by show IsWord (String.toList _); exact isWord_label _ (by decide)⟩, ⟨all_blanks _, fixedWord_word _ _⟩,
      ⟨one_blank, by show IsWord (String.toList _); exact isWord_label _ (by decide)⟩, ⟨all_blanks _, fixedWord_word _ _⟩, ⟨ht.2, by show IsWord (String.toList _); exact isWord_label _ (by decide)⟩, ⟨one_blank, hstr⟩, by simp⟩
  · simp [ht.1]

/-- **C89, stops.** Likewise for the line of a stop. -/
theorem C89_stop_line (str : ℚ → Text) (tab : Text) (x : StopRow) (ht : tab ≠ [] ∧ ∀ c ∈ tab, WhiteSpace c) (hi : IsWord x.ident)
    (hstr : IsWord (str x.capacity)) :
    ∃ po te tl wt nt lt td, splitWords (x.text str tab) =
        ["ID:".toList, x.ident, "P:".toList, po, "TW:".toList, te, "to".toList, tl, "WT:".toList, wt, "NT:".toList, nt,
          "LT:".toList, lt, "DT:".toList, td, "L:".toList, str x.capacity] ∧
      PositionWord x.pos po ∧ NumberWord 1 x.earliest te ∧ BoundWord 1 x.latest tl ∧ NumberWord 1 x.waiting wt ∧
      NumberWord 1 x.transit nt ∧ NumberWord 1 x.load lt ∧ NumberWord 1 x.departure td := by
  obtain ⟨n, hn⟩ := formatBound_word 7 1 x.latest
  refine ⟨posText x.pos, fixedWord 1 x.earliest, boundWord 1 x.latest, fixedWord 1 x.waiting, fixedWord 1 x.transit,
    fixedWord 1 x.load, fixedWord 1 x.departure, ?_, posText_position _,
    fixedWord_number _ _, boundWord_bound _ _, fixedWord_number _ _, fixedWord_number _ _, fixedWord_number _ _, fixedWord_number _ _⟩
  have e : x.text str tab = lineText [([], "ID:".toList), ([' '], x.ident), (List.replicate (5 - x.ident.length) ' ' ++ tab, "P:".toList),
      ([' '], posText x.pos), (tab, "TW:".toList),
      (' ' :: List.replicate (7 - (fixedWord 1 x.earliest).length) ' ', fixedWord 1 x.earliest), ([' '], "to".toList),
      (' ' :: List.replicate n ' ', boundWord 1 x.latest), (tab, "WT:".toList),
      (' ' :: List.replicate (7 - (fixedWord 1 x.waiting).length) ' ', fixedWord 1 x.waiting), (tab, "NT:".toList),
      (' ' :: List.replicate (7 - (fixedWord 1 x.transit).length) ' ', fixedWord 1 x.transit), (tab, "LT:".toList),
      (' ' :: List.replicate (5 - (fixedWord 1 x.load).length) ' ', fixedWord 1 x.load), (tab, "DT:".toList),
      (' ' :: List.replicate (7 - (fixedWord 1 x.departure).length) ' ', fixedWord 1 x.departure), (tab, "L:".toList), ([' '], str x.capacity)] := by
    simp [StopRow.text, List.intercalate, lineText, padRight, hn, formatFixed, padLeft, fixedWord]
  rw [e]
  refine (lineText_words _ ?_ ?_).split
  · simp only [List.forall_mem_cons]
    refine ⟨⟨by simp, by show IsWord (String.toList _); exact isWord_label _ (by decide)⟩, ⟨one_blank, hi⟩, ⟨pad_blanks ht.2 _, by show IsWord (String.toList _); exact isWord_label _ (by decide)⟩, ⟨one_blank, posText_word _⟩,
      ⟨ht.2, by show IsWord (String.toList _); exact isWord_label _ (by decide)⟩, ⟨all_blanks _, fixedWord_word _ _⟩, ⟨one_blank, by show IsWord (String.toList _); exact isWord_label _ (by decide)⟩, ⟨all_blanks _, boundWord_word _ _⟩,
      ⟨ht.2, by show IsWord (String.toList _); exact isWord_label _ (by decide)⟩, ⟨all_blanks _, fixedWord_word _ _⟩, ⟨ht.2, by show IsWord (String.toList _); exact isWord_label _ (by decide)⟩, ⟨all_blanks _, fixedWord_word _ _⟩,
      ⟨ht.2, by show IsWord (String.toList _); exact isWord_label _ (by decide)⟩, ⟨all_blanks _, fixedWord_word _ _⟩, ⟨ht.2, by show IsWord (String.toList _); exact isWord_label _ (by decide)⟩, ⟨all_blanks _, fixedWord_word _ _⟩,
      ⟨ht.2, by show IsWord (String.toList _); exact isWord_label _ (by decide)⟩, ⟨one_blank, hstr⟩, by simp⟩
  · simp [ht.1]

theorem mem_intercalate {c : Char} {sep : Text} {l : List Text} (h : c ∈ List.intercalate sep l) : c ∈ sep ∨ ∃ w ∈ l, c ∈ w := by
  induction l with
  | nil => simp [List.intercalate] at h
  | cons x l ih =>
    cases l with
    | nil => exact .inr ⟨x, by simp, by simpa [List.intercalate] using h⟩
    | cons y l =>
      have e : List.intercalate sep (x :: y :: l) = x ++ sep ++ List.intercalate sep (y :: l) := by simp [List.intercalate]
      rw [e, List.mem_append, List.mem_append] at h
      rcases h with (h | h) | h
      · exact .inr ⟨x, by simp, h⟩
      · exact .inl h
      · rcases ih h with h | ⟨w, hw, h⟩
        · exact .inl h
        · exact .inr ⟨w, List.mem_cons_of_mem _ hw, h⟩

theorem joinWith_nested (c : Char) (a m b : List Text) (hm : m ≠ []) : joinWith c (a ++ joinWith c m :: b) = joinWith c (a ++ m ++ b) := by
  have base : ∀ m : List Text, m ≠ [] → joinWith c (joinWith c m :: b) = joinWith c (m ++ b) := by
    intro m
    induction m with
    | nil => exact fun h => absurd rfl h
    | cons x m ih =>
      intro _
      cases m with
      | nil => simp [joinWith, List.intercalate]
      | cons y m =>
        have h1 := ih (by simp)
        rw [joinWith_cons_cons, List.cons_append, List.cons_append, joinWith_cons_cons, ← List.cons_append, ← h1]
        cases b with
        | nil => simp [joinWith, List.intercalate]
        | cons z b => rw [joinWith_cons_cons, joinWith_cons_cons]; simp
  induction a with
  | nil => exact base m hm
  | cons x a ih =>
    obtain ⟨y, m', rfl⟩ := List.exists_cons_of_ne_nil hm
    cases a with
    | nil =>
      simp only [List.nil_append, List.cons_append] at ih ⊢
      rw [joinWith_cons_cons, joinWith_cons_cons, ih]
    | cons z a =>
      simp only [List.cons_append] at ih ⊢
      rw [joinWith_cons_cons, joinWith_cons_cons, ih]

/-- The lines of a vehicle, under a line `Vehicle: `. -/
structure VehicleLines (tab : Text) (x : RouteRows) (lines : List Text) : Prop where
  shown : ∃ i a b e l c, lines = "Vehicle: ".toList :: [i, "Initial:  ".toList ++ a, "Final:    ".toList ++ b, "Earliest: ".toList ++ e,
      "Latest:   ".toList ++ l, "Capacity: ".toList ++ c].map (tab ++ ·) ∧
    FieldLine "ID" x.vehicle i ∧ PositionWord x.initial a ∧ PositionWord x.final b ∧ ShowsNumber 2 x.earliest e ∧ ShowsBound 2 x.latest l ∧
    ShowsNumber 2 x.capacity c

/-- The lines of a route: those of its vehicle; how many trips it serves, and that many lines; how many stops it has, and that
many lines. -/
structure RouteLines (str : ℚ → Text) (tab : Text) (x : RouteRows) (lines : List Text) : Prop where
  shown : ∃ vehicle ridden trips stopped stops, lines = vehicle ++ [ridden] ++ trips ++ [stopped] ++ stops ∧ VehicleLines tab x vehicle ∧
    CountLine "Planned Trips" trips.length ridden ∧ List.Forall₂ (fun y line => line = tab ++ y.text str tab) x.trips trips ∧
    CountLine "Stops" stops.length stopped ∧ List.Forall₂ (fun y line => line = tab ++ y.text str tab) x.stops stops

/-- **C89, the lines of a route.** They announce as many rides and as many stops as follow, and show the vehicle's numbers to two
digits. -/
theorem C89_route_lines (str : ℚ → Text) (tab : Text) (x : RouteRows) : RouteLines str tab x (x.lines str tab) := by
  have hb : ∀ b, ShowsBound 2 b (formatBound 7 2 b) := fun b => by
    obtain ⟨n, e⟩ := formatBound_word 7 2 b
    exact ⟨n, _, e, boundWord_bound 2 b⟩
  have hf : ∀ {β : Type} (f : β → Text) (l : List β), List.Forall₂ (fun y line => line = f y) l (l.map f) := fun f l => by
    rw [List.forall₂_map_right_iff]
    exact List.forall₂_same.2 fun _ _ => rfl
  refine ⟨_, quoted "Planned Trips".toList (decimal x.trips.length), x.trips.map fun y => tab ++ y.text str tab,
    quoted "Stops".toList (decimal x.stops.length), x.stops.map fun y => tab ++ y.text str tab, ?_,
    ⟨quoted "ID".toList x.vehicle, posText x.initial, posText x.final, formatFixed 7 2 x.earliest, formatBound 7 2 x.latest,
      formatFixed 7 2 x.capacity, rfl, rfl, posText_position _, posText_position _, formatFixed_shows .., hb _, formatFixed_shows ..⟩,
    ⟨decimal x.trips.length, rfl, by rw [List.length_map]; exact numberText_decimal _⟩, hf _ _,
    ⟨decimal x.stops.length, rfl, by rw [List.length_map]; exact numberText_decimal _⟩, hf _ _⟩
  simp [RouteRows.lines]

/-- The first lines of a report. -/
structure HeadLines (x : Overview) (lines : List Text) : Prop where
  shown : ∃ a b, lines = [a, b, "Routes: ".toList] ∧ FieldLine "Planning UUID" x.uuid a ∧ CountLine "Routes count" x.count b

/-- The last lines of a report. -/
structure FootLines (str : ℚ → Text) (x : Overview) (lines : List Text) : Prop where
  shown : ∃ a b c d e f s v, lines = [a ++ " seconds".toList, b, c, d, e, f] ∧
    FieldLine "Computation time" s a ∧ ShowsNumber 4 x.seconds s ∧
    FieldLine "Coverage Rate" (str x.coverage) b ∧
    FieldLine "Objective" (match x.objective with
      | .dialARide => "DialARideObjective".toList
      | .taxiSharing => "TaxiSharingObjective".toList
      | .hashCode => "HashCodeObjective".toList) c ∧
    FieldLine "Optimization Value" v d ∧ (2 ≤ x.value.length → v = ['('] ++ List.intercalate [',', ' '] (x.value.map str) ++ [')']) ∧
    (∀ q, x.value = [q] → v = ['('] ++ str q ++ [',', ')']) ∧
    FieldLine "Feasible" (if x.feasible = true then "True".toList else "False".toList) e ∧
    FieldLine "Direction" "Maximization".toList f

/-- **C89, lines.** Cut at the line ends, the text of a report is its head, the lines of the routes one after the other, indented,
and its foot: nothing runs together (if no identifier, tab or number contains a line end). The head shows the identifier and the
number of routes, the foot the time, coverage, objective, value, verdict and direction. -/
theorem C89_lines (str : ℚ → Text) (tab : Text) (x : Overview) (hne : x.routes ≠ []) (ht : '\n' ∉ tab) (hu : '\n' ∉ x.uuid)
    (hstr : ∀ q, '\n' ∉ str q) (hv : ∀ y ∈ x.routes, '\n' ∉ y.vehicle) (htr : ∀ y ∈ x.routes, ∀ t ∈ y.trips, '\n' ∉ t.ident)
    (hst : ∀ y ∈ x.routes, ∀ s ∈ y.stops, '\n' ∉ s.ident) :
    ∃ head blocks foot, cut '\n' (x.text str tab) = head ++ blocks.flatten.map (tab ++ ·) ++ foot ∧
      HeadLines x head ∧ List.Forall₂ (RouteLines str tab) x.routes blocks ∧ FootLines str x foot := by
  have hnum : ∀ w d q, '\n' ∉ formatFixed w d q := by
    intro w d q h
    rcases List.mem_append.1 (show '\n' ∈ List.replicate _ ' ' ++ fixedWord d q from h) with h | h
    · simp at h
    · exact (fixedWord_word d q).2 _ h (by unfold WhiteSpace; decide)
  have hbound : ∀ w d b, '\n' ∉ formatBound w d b := by
    intro w d b h
    obtain ⟨n, e⟩ := formatBound_word w d b
    rw [e] at h
    rcases List.mem_append.1 h with h | h
    · simp at h
    · exact (boundWord_word d b).2 _ h (by unfold WhiteSpace; decide)
  have hpos : ∀ p, '\n' ∉ posText p := fun p h => (posText_word p).2 _ h (by unfold WhiteSpace; decide)
  have hdec : ∀ n, '\n' ∉ decimal n := fun n => (decimal_no_blank n).2
  have htrip : ∀ y ∈ x.routes, ∀ t ∈ y.trips, '\n' ∉ t.text str tab := by
    intro y hy t h1 h2
    rcases mem_intercalate h2 with h2 | ⟨w, hw, h2⟩
    · exact ht h2
    · simp only [List.mem_cons, List.not_mem_nil, or_false] at hw
      rcases hw with rfl | rfl | rfl | rfl | rfl | rfl | rfl | rfl | rfl <;>
        simp [padRight, hnum, hbound, hpos, hstr, htr y hy t h1] at h2
  have hstop : ∀ y ∈ x.routes, ∀ t ∈ y.stops, '\n' ∉ t.text str tab := by
    intro y hy t h1 h2
    rcases mem_intercalate h2 with h2 | ⟨w, hw, h2⟩
    · exact ht h2
    · simp only [List.mem_cons, List.not_mem_nil, or_false] at hw
      rcases hw with rfl | rfl | rfl | rfl | rfl | rfl | rfl | rfl <;>
        simp [padRight, hnum, hbound, hpos, hstr, hst y hy t h1] at h2
  have hlines : ∀ y ∈ x.routes, ∀ t ∈ RouteRows.lines str tab y, '\n' ∉ t := by
    intro y hy t h1
    simp only [RouteRows.lines, List.map_cons, List.map_nil, List.mem_cons, List.mem_append, List.mem_map, List.not_mem_nil, false_or, List.cons_append, or_assoc] at h1
    rcases h1 with rfl | rfl | rfl | rfl | rfl | rfl | rfl | rfl | ⟨z, hz, rfl⟩ | rfl | ⟨z, hz, rfl⟩
    all_goals simp [quoted, hpos, hnum, hbound, hdec, ht, hv y hy]
    · exact htrip y hy z hz
    · exact hstop y hy z hz
  have htup : ∀ l, '\n' ∉ tupleText str l := by
    intro l h
    unfold tupleText at h
    split at h
    · simp at h
    · simp [hstr] at h
    · simp only [List.cons_append, List.mem_cons, List.mem_append, List.not_mem_nil, or_false] at h
      rcases h with h | h | h
      · simp at h
      · rcases mem_intercalate h with h | ⟨w, hw, h⟩
        · simp at h
        · obtain ⟨q, _, rfl⟩ := List.mem_map.1 hw
          exact hstr q h
      · simp at h
  have hobj : ∀ k : Objective, '\n' ∉ k.className := by
    intro k
    cases k <;> decide
  have hbool : ∀ b : Bool, '\n' ∉ (if b then "True".toList else "False".toList) := by decide
  have hm : (x.routes.flatMap (RouteRows.lines str tab)).map (tab ++ ·) ≠ [] := by
    cases hx : x.routes with
    | nil => exact absurd hx hne
    | cons y l => simp [RouteRows.lines]
  have hval : ∀ l : List ℚ, (2 ≤ l.length → tupleText str l = ['('] ++ List.intercalate [',', ' '] (l.map str) ++ [')']) ∧
      ∀ q, l = [q] → tupleText str l = ['('] ++ str q ++ [',', ')'] := by
    intro l
    match l with
    | [] => simp
    | [q] => simp [tupleText]
    | a :: b :: l => simp [tupleText]
  refine ⟨[quoted "Planning UUID".toList x.uuid, quoted "Routes count".toList (decimal x.count), "Routes: ".toList],
    x.routes.map (RouteRows.lines str tab),
    [quoted "Computation time".toList (formatFixed 0 4 x.seconds) ++ " seconds".toList, quoted "Coverage Rate".toList (str x.coverage),
      quoted "Objective".toList x.objective.className, quoted "Optimization Value".toList (tupleText str x.value),
      quoted "Feasible".toList (if x.feasible then "True".toList else "False".toList), quoted "Direction".toList "Maximization".toList], ?_,
    ⟨_, _, rfl, rfl, decimal x.count, rfl, numberText_decimal _⟩,
    by rw [List.forall₂_map_right_iff]; exact List.forall₂_same.2 fun y _ => C89_route_lines str tab y,
    ⟨_, _, _, _, _, _, formatFixed 0 4 x.seconds, _, rfl, rfl, formatFixed_shows .., rfl, by cases x.objective <;> rfl, rfl, (hval _).1, (hval _).2,
      rfl, rfl⟩⟩
  rw [← List.flatMap_def]
  refine (congrArg (cut '\n') (joinWith_nested '\n' [quoted "Planning UUID".toList x.uuid, quoted "Routes count".toList (decimal x.count), "Routes: ".toList] _
    [quoted "Computation time".toList (formatFixed 0 4 x.seconds) ++ " seconds".toList, quoted "Coverage Rate".toList (str x.coverage),
      quoted "Objective".toList x.objective.className, quoted "Optimization Value".toList (tupleText str x.value),
      quoted "Feasible".toList (if x.feasible then "True".toList else "False".toList), quoted "Direction".toList "Maximization".toList] hm)).trans (cut_joinWith ?_ ?_)
  · simp
  · intro t h
    simp only [List.mem_append, List.mem_map, List.mem_flatMap] at h
    rcases h with (h | ⟨w, ⟨y, hy, hw⟩, rfl⟩) | h
    · simp only [List.mem_cons, List.not_mem_nil, or_false] at h
      rcases h with rfl | rfl | rfl <;> simp [quoted, hu, hdec]
    · simp [ht, hlines y hy w hw]
    · simp only [List.mem_cons, List.not_mem_nil, or_false] at h
      rcases h with rfl | rfl | rfl | rfl | rfl | rfl
      · simp [quoted, hnum]
      · simp [quoted, hstr]
      · simp [quoted, hobj]
      · simp [quoted, htup]
      · simp [quoted]
        exact hbool _
      · simp [quoted]

/-- The default tab. -/
example : (TripRow.mk (decimal 7) [2, 1 / 3] [8, -5] 0 .inf 15 6 1 23 3 (26 + 1 / 4) 1).text (fun _ => ['1']) "  ".toList =
    "ID: 7      P: (002.000,000.333) to (008.000,-05.000)  TW:     0.0 to     inf  WT:    15.0  NT:     6.0  LT:  1.0  TT:   23.0  T:     3.0 to    26.2  L: 1".toList := by
  decide +kernel

/-- A report on one route without trips that still stops twice. -/
def idleOverview : Overview :=
  { uuid := "u1".toList, count := 1,
    routes := [⟨decimal 3, [0, 0], [1, 0], 0, .inf, 1, [],
      [⟨"[]".toList, [0, 0], 0, .inf, 0, 0, 0, 0, 0⟩, ⟨"[]".toList, [1, 0], 0, .inf, 0, 1, 0, 1, 0⟩]⟩],
    seconds := 1 / 3, coverage := 0, objective := .hashCode, value := [0, 1], feasible := true }

/-- Its lines: no trip is announced, two stops are. -/
example : (cut '\n' (idleOverview.text (fun q => decimal q.num.toNat) "  ".toList)).map String.ofList =
    ["Planning UUID: \"u1\"", "Routes count: \"1\"", "Routes: ", "  Vehicle: ", "    ID: \"3\"", "    Initial:  (000.000,000.000)",
      "    Final:    (001.000,000.000)", "    Earliest:    0.00", "    Latest:       inf", "    Capacity:    1.00",
      "  Planned Trips: \"0\"", "  Stops: \"2\"",
      "    ID: []     P: (000.000,000.000)  TW:     0.0 to     inf  WT:     0.0  NT:     0.0  LT:   0.0  DT:     0.0  L: 0",
      "    ID: []     P: (001.000,000.000)  TW:     0.0 to     inf  WT:     0.0  NT:     1.0  LT:   0.0  DT:     1.0  L: 0",
      "Computation time: \"0.3333\" seconds", "Coverage Rate: \"0\"", "Objective: \"HashCodeObjective\"",
      "Optimization Value: \"(0, 1)\"", "Feasible: \"True\"", "Direction: \"Maximization\""] := by
  decide +kernel

end Jinete
