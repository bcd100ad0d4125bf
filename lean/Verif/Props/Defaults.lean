import Verif.Model.Defaults
import Verif.Props.Columnar
import Verif.Props.Sampling
import Verif.Props.Solve

/-!
# C90: a run of the solver with its default classes, from a Cordeau-Laporte file to the report
-/

set_option autoImplicit false

namespace Jinete

/-! ## How the solver runs -/

/-- Print a text. -/
def World.withPrinted {σ : Type} (w : World σ) (t : Text) : World σ := { w with printed := w.printed ++ [t] }

/-- Once the problem is loaded, the outcome is that of the algorithm, then that of formatting. -/
theorem solve_default {euclid : Pos → Pos → ℚ} {columnar : OutputFormat} {source : Text} {optimize : Problem → M (List Nat)} {w : Site} {text : Text}
    {trips : List LoadedTrip} {vehicles : List LoadedVehicle} {s s' : LoaderState ℚ} (ht : w.file source = some text)
    (hj : loaderJob (cordeauFormatter ℚ) (LoaderState.ofText text) = (.ok trips, s)) (hf : loaderFleet (cordeauFormatter ℚ) s = (.ok vehicles, s')) :
    (defaultSolver euclid columnar source optimize).solve w =
      match optimize ⟨euclid, .dialARide, trips, vehicles⟩ w.data.2 with
      | (.error e, h) => (.error e, w.withData (s', h))
      | (.ok rs, h) =>
        match columnar ⟨euclid, .dialARide, trips, vehicles⟩ rs h with
        | (.error e, h') => (.error e, w.withData (s', h'))
        | (.ok t, h') => (.ok (.result ⟨euclid, .dialARide, trips, vehicles⟩ rs), (w.withData (s', h')).withPrinted t) := by
  have hl : tuned (fileLoader euclid) [("file_path", .path source)] [] = newFileLoader source (cordeauInput euclid) := rfl
  unfold Solver.solve defaultSolver
  simp only [List.isEmpty_nil, if_true]
  unfold staticRun
  rw [hl]
  unfold newFileLoader
  rw [Py.bind_assoc_run, Py.modify_bind]
  rw [ht]
  simp only [Option.elim_some]
  rw [Py.pure_bind, Py.bind_assoc_run]
  refine (Py.bind_ok (show onLoader (loaderJob (cordeauInput euclid).formatter) (w.withData (LoaderState.ofText text, w.data.2)) =
    (.ok trips, w.withData (s, w.data.2)) by simp only [onLoader, onData, World.withData, cordeauInput, hj])).trans ?_
  rw [Py.pure_bind, Py.bind_assoc_run]
  rw [Py.bind_ok (show onLoader (loaderFleet (cordeauInput euclid).formatter) (w.withData (s, w.data.2)) = (.ok vehicles, w.withData (s', w.data.2)) by
    simp only [onLoader, onData, World.withData, cordeauInput, hf])]
  rw [Py.pure_bind]
  have ha : tuned (algorithmClass optimize) [] [("fleet", .fleet vehicles), ("job", .job (cordeauInput euclid).metric (cordeauInput euclid).objective trips)] = pure
      { optimize := do
          let routes ← onData (onObjects (optimize ⟨euclid, .dialARide, trips, vehicles⟩))
          pure (.result ⟨euclid, .dialARide, trips, vehicles⟩ routes) } := rfl
  rw [ha, Py.pure_bind, Py.bind_assoc_run]
  rcases e : optimize ⟨euclid, .dialARide, trips, vehicles⟩ w.data.2 with ⟨er | rs, h⟩
  · rw [Py.bind_error (s' := w.withData (s', h)) (e := er) (by simp only [onData, onObjects, World.withData, e])]
  · rw [Py.bind_ok (s' := w.withData (s', h)) (a := rs) (by simp only [onData, onObjects, World.withData, e])]
    rw [Py.pure_bind]
    have hs : tuned (promptStorer columnar) [] [("result", .result ⟨euclid, .dialARide, trips, vehicles⟩ rs)] = pure
          ⟨promptStore (onObjects (columnar ⟨euclid, .dialARide, trips, vehicles⟩ rs))⟩ := rfl
    rw [hs, Py.pure_bind]
    simp only
    unfold promptStore
    rw [Py.bind_assoc_run]
    rcases e2 : columnar ⟨euclid, .dialARide, trips, vehicles⟩ rs h with ⟨er | t, h'⟩
    · rw [Py.bind_error (s' := w.withData (s', h')) (e := er) (by simp only [onData, onObjects, World.withData, e2])]
    · rw [Py.bind_ok (s' := w.withData (s', h')) (a := t) (by simp only [onData, onObjects, World.withData, e2])]
      rw [Py.modify_bind, Py.pure_run]
      rfl

/-! ## Loading -/

variable {rows : Rows} {m n : Nat} {T Q L dx dy : ℚ} {euclid : Pos → Pos → ℚ}

/-- Rows that make sense: services take no negative time, and what is picked up is not negative. -/
structure SensibleRows (rows : Rows) (n : Nat) : Prop where
  duration : ∀ k < 2 * n, ∀ row x y d q e l, rows[k + 2]? = some row → RequestRow row x y d q e l → 0 ≤ d
  load : ∀ k < n, ∀ row q, rows[k + 2]? = some row → RowLoad row q → 0 ≤ q

/-- The problem in Cordeau-Laporte data, as it should be loaded. -/
structure CordeauProblem (euclid : Pos → Pos → ℚ) (rows : Rows) (m n : Nat) (T Q L dx dy : ℚ) (P : Problem) : Prop where
  metric : P.metric = euclid
  objective : P.objective = .dialARide
  trips : P.trips.length = n
  vehicles : P.vehicles.length = m
  request : ∀ k t, P.trips[k]? = some t → t.identifier = decimal (k + 1) ∧ t.trip.timeout = .fin L ∧
    ∃ row row', rows[k + 2]? = some row ∧ rows[k + 2 + n]? = some row' ∧ ServesRow row t.trip.origin ∧
      ServesRow row' t.trip.destination ∧ RowLoad row t.trip.capacity
  vehicle : ∀ k v, P.vehicles[k]? = some v → v.identifier = decimal k ∧ v.vehicle.origin.position = [dx, dy] ∧
    v.vehicle.destination = v.vehicle.origin ∧ v.vehicle.capacity = Q ∧ v.vehicle.timeout = .fin T
  depicted : Depicts P P.env P.ident P.vehicleIdent P.fleet P.job
  hours : ∀ v ∈ P.vehicles, v.vehicle.origin.earliest = 0 ∧ v.vehicle.origin.latest = .inf

/-- Loading a Cordeau-Laporte file gives its problem. -/
theorem cordeau_problem (hd : CordeauData rows m n T Q L dx dy) (euclid : Pos → Pos → ℚ) {text : Text} (ht : FileText text rows) :
    ∃ trips vehicles s s', loaderJob (cordeauFormatter ℚ) (LoaderState.ofText text) = (.ok trips, s) ∧
      loaderFleet (cordeauFormatter ℚ) s = (.ok vehicles, s') ∧ CordeauProblem euclid rows m n T Q L dx dy ⟨euclid, .dialARide, trips, vehicles⟩ := by
  obtain ⟨trips, sf, e1, l1, _, t1, _⟩ := C49_requests_paired hd (SurfaceState.new (D := ℚ) [])
  obtain ⟨vehicles, sf', e2, l2, _, t2, _⟩ := C49_vehicles hd sf
  obtain ⟨s, s', h1, h2, _⟩ := (C84_instance_loaded (cordeauFormatter ℚ) text).1 rows trips vehicles sf sf' ht e1 e2
  obtain ⟨vs, sf2, e3, t3⟩ := C50_depot_window_partial hd sf
  obtain ⟨rfl, rfl⟩ : vehicles = vs ∧ sf' = sf2 := by
    rw [e2] at e3
    simpa using e3
  exact ⟨trips, vehicles, s, s', h1, h2, rfl, rfl, l1, l2, t1, t2, Problem.depicted _, fun v hv => ⟨(t3 v hv).1, (t3 v hv).2.1⟩⟩

theorem CordeauProblem.envOK {P : Problem} (hP : CordeauProblem euclid rows m n T Q L dx dy P) (hs : SensibleRows rows n)
    (he : ∀ a b, 0 ≤ euclid a b) : EnvOK P.env := by
  have hk : ∀ k, 0 ≤ (P.env.trip k).origin.duration ∧ 0 ≤ (P.env.trip k).destination.duration ∧ 0 ≤ (P.env.trip k).capacity := by
    intro k
    simp only [Problem.env]
    cases hk : P.trips[k]? with
    | none => simp
    | some t =>
      have hlt : k < n := by rw [← hP.trips]; exact (List.getElem?_eq_some_iff.1 hk).1
      obtain ⟨_, _, row, row', h1, h2, ⟨x, y, d, q, e, l, hr, _, _, _, hd⟩, ⟨x', y', d', q', e', l', hr', _, _, _, hd'⟩, hq⟩ := hP.request k t hk
      rw [Option.elim_some, hd, hd']
      exact ⟨hs.duration k (by omega) _ _ _ _ _ _ _ h1 hr, hs.duration (k + n) (by omega) _ _ _ _ _ _ _ (by rw [← h2]; congr 1; omega) hr',
        hs.load k hlt _ _ h1 hq⟩
  exact ⟨fun a b => by simp only [Problem.env, hP.metric]; exact he a b, fun t => (hk t).1, fun t => (hk t).2.1, fun t => (hk t).2.2⟩

/-! ## What served requests get -/

/-- Every served request is picked up where its first row says and dropped where its second row says, neither before it opens;
the ride is no longer than the header allows, and the vehicle is not over its capacity at either end. If the visits of the route
are served as soon as possible, neither is after it closes. All up to the tolerance of the code. -/
def RequestsServed (E : Env) (rows : Rows) (n : Nat) (Q L : ℚ) (h : Heap) (rs : List Nat) : Prop :=
  ∀ r ∈ rs, ∀ (i j : Nat) (v w : Visit) (x y : Tm) (q q' : ℚ) (t : Nat), (itinerary h.core r)[i]? = some v → (itinerary h.core r)[j]? = some w →
    (vehicleTimetable E (planOf E h.core r).1 (itinerary h.core r))[i]? = some x → (vehicleTimetable E (planOf E h.core r).1 (itinerary h.core r))[j]? = some y →
    (loads E 0 (itinerary h.core r))[i]? = some q → (loads E 0 (itinerary h.core r))[j]? = some q' → t ∈ v.picks → t ∈ w.drops →
    ∃ row row' x1 y1 d1 q1 e1 l1 x2 y2 d2 q2 e2 l2, rows[t + 2]? = some row ∧ rows[t + 2 + n]? = some row' ∧
      RequestRow row x1 y1 d1 q1 e1 l1 ∧ RequestRow row' x2 y2 d2 q2 e2 l2 ∧ v.pos = [x1, y1] ∧ w.pos = [x2, y2] ∧
      e1 ≤ x.start + errorBound ∧ e2 ≤ y.start + errorBound ∧ y.start - x.dep ≤ L + errorBound ∧ q ≤ Q + errorBound ∧ q' ≤ Q + errorBound ∧
      (∀ x', (vehicleTimetable E (planOf E h.core r).1 (asSoonAsPossible (itinerary h.core r)))[i]? = some x' → x'.start ≤ l1 + errorBound) ∧
      ∀ y', (vehicleTimetable E (planOf E h.core r).1 (asSoonAsPossible (itinerary h.core r)))[j]? = some y' → y'.start ≤ l2 + errorBound

/-- Visits of a route as it should be are where the served trips start or end. -/
theorem Proper.positions {E : Env} {h : Heap} {r v : Nat} (hp : Proper E v (duties h.core r)) {x : Visit} (hx : x ∈ itinerary h.core r) (t : Nat) :
    (t ∈ x.picks → x.pos = (E.trip t).origin.position) ∧ (t ∈ x.drops → x.pos = (E.trip t).destination.position) := by
  obtain ⟨mid, e, hm⟩ := hp
  have hx' : x.duty ∈ duties h.core r := List.mem_map_of_mem hx
  rw [e] at hx'
  have hmid : ∀ d ∈ mid, (t ∈ d.picks → d.pos = (E.trip t).origin.position) ∧ (t ∈ d.drops → d.pos = (E.trip t).destination.position) := by
    intro d hd
    obtain ⟨u, rfl | rfl⟩ := hm d hd <;> constructor <;> intro ht <;> simp [pickDuty, dropDuty] at ht ⊢ <;> rw [ht]
  have : (t ∈ x.duty.picks → x.duty.pos = (E.trip t).origin.position) ∧ (t ∈ x.duty.drops → x.duty.pos = (E.trip t).destination.position) := by
    rcases List.mem_cons.1 hx' with h | h
    · rw [h]; simp
    · rcases List.mem_append.1 h with h | h
      · exact hmid _ h
      · rw [List.mem_singleton.1 h]; simp
  exact this

theorem GoodPlan.requestsServed {P : Problem} (hP : CordeauProblem euclid rows m n T Q L dx dy P) {h : Heap} {rs : List Nat}
    (hg : GoodPlan P.env P.fleet P.job h rs) : RequestsServed P.env rows n Q L h rs := by
  intro r hr i j v w x y q q' t hv hw hx hy hq hq' ht ht'
  have htr : t ∈ tripsOf h.core r := List.mem_flatMap.2 ⟨v, List.mem_of_getElem? hv, ht⟩
  have hlt : t < P.trips.length := by
    have := hg.planning.job t (List.mem_flatMap.2 ⟨r, hr, htr⟩)
    rwa [Problem.job, List.mem_range] at this
  have hget : P.trips[t]? = some P.trips[t] := List.getElem?_eq_getElem hlt
  have henv : P.env.trip t = P.trips[t].trip := by simp only [Problem.env, hget, Option.elim_some]
  have hveh : ∀ u ∈ P.fleet, (P.env.vehicle u).capacity = Q := by
    intro u hu
    have hu' : u < P.vehicles.length := by rwa [Problem.fleet, List.mem_range] at hu
    have hget : P.vehicles[u]? = some P.vehicles[u] := List.getElem?_eq_getElem hu'
    simp only [Problem.env, hget, Option.elim_some]
    exact (hP.vehicle u _ hget).2.2.2.1
  have hcap : (planOf P.env h.core r).1.capacity = Q :=
    hveh _ (hg.planning.vehicles.mem_iff.1 (List.mem_map_of_mem hr))
  obtain ⟨_, hL, row, row', h1, h2, ⟨x1, y1, d1, q1, e1, l1, hr1, p1, o1, c1, _⟩, ⟨x2, y2, d2, q2, e2, l2, hr2, p2, o2, c2, _⟩, _⟩ := hP.request t _ hget
  rcases hg.loosely r hr with h0 | hl
  · rw [h0] at htr; cases htr
  have served := hl.trips i j v w x y q q' t hv hw hx hy hq hq' ht ht'
  have reached : ∀ {k : Nat} {u : Visit}, (itinerary h.core r)[k]? = some u →
      ∃ z, (vehicleTimetable P.env (planOf P.env h.core r).1 (asSoonAsPossible (itinerary h.core r)))[k]? = some z := by
    intro k u hu
    have hk : k < (itinerary h.core r).length := (List.getElem?_eq_some_iff.1 hu).1
    exact ⟨_, List.getElem?_eq_getElem (by simpa [vehicleTimetable, asSoonAsPossible] using hk)⟩
  refine ⟨row, row', x1, y1, d1, q1, e1, l1, x2, y2, d2, q2, e2, l2, h1, h2, hr1, hr2, ?_, ?_, ?_, ?_, ?_, ?_, ?_, ?_, ?_⟩
  · rw [((hg.proper r hr).positions (List.mem_of_getElem? hv) t).1 ht, henv, p1]
  · rw [((hg.proper r hr).positions (List.mem_of_getElem? hw) t).2 ht', henv, p2]
  · refine le_trans ?_ served.pickEarliest
    rw [henv, Trip.originEarliest, hL, ← o1]
    exact le_max_right _ _
  · refine le_trans ?_ served.dropEarliest
    rw [henv, Trip.destinationEarliest, ← o2]
    exact le_max_right _ _
  · have := served.ride
    rw [henv, hL] at this
    simpa [Bound.addQ, Bound.leQ] using this
  · rw [← hcap]; exact served.pickLoad
  · rw [← hcap]; exact served.dropLoad
  · intro x' hx'
    obtain ⟨y', hy'⟩ : ∃ y', (vehicleTimetable P.env (planOf P.env h.core r).1 (asSoonAsPossible (itinerary h.core r)))[j]? = some y' :=
      reached hw
    have := (hl.closing i j v w x' y' t hv hw hx' hy' ht ht').1
    rw [henv, Bound.leQ_addQ, Trip.originLatest, Bound.leQ_min, c1, Bound.leQ_fin] at this
    linarith [this.2]
  · intro y' hy'
    obtain ⟨x', hx'⟩ : ∃ x', (vehicleTimetable P.env (planOf P.env h.core r).1 (asSoonAsPossible (itinerary h.core r)))[i]? = some x' :=
      reached hv
    have := (hl.closing i j v w x' y' t hv hw hx' hy' ht ht').2
    rw [henv, Bound.leQ_addQ, Trip.destinationLatest, Bound.leQ_min, c2, Bound.leQ_fin] at this
    linarith [this.2]

/-! ## Reporting -/

/-- A run that printed its report: the result is a good plan, the text printed shows it, and files are untouched. -/
structure Reported (str : ℚ → Text) (w w' : Site) (P : Problem) (l : List Nat) : Prop where
  plan : GoodPlan P.env P.fleet P.job w'.data.2 l
  printed : ∃ x, w'.printed = w.printed ++ [x.text str "  ".toList] ∧
    ShowsPlan P.env P.ident P.vehicleIdent w'.data.2 P.objective false P.job l x
  file : w'.file = w.file

theorem GoodPlan.onlyMemos {E : Env} {fleet job : List Nat} {h h' : Heap} {rs : List Nat} (hg : GoodPlan E fleet job h rs) (e : h'.core = h.core)
    (hs : ∀ r ∈ rs, Sound E h' r) : GoodPlan E fleet job h' rs := by
  obtain ⟨⟨_, h2, h3, h4, h5⟩, h6, h7, h8⟩ := hg
  refine ⟨⟨hs, ?_, ?_, ?_, ?_⟩, ?_, ?_, ?_⟩
  · rw [e]; exact h2
  · rw [e]; exact h3
  · rw [e]; exact h4
  · rw [e]; exact h5
  · unfold ProperRoutes; rw [e]; exact h6
  · unfold ServesLoosely; rw [e]; exact h7
  · unfold ServesFeasibly; rw [e]; exact h8

/-- The report of a good plan. -/
theorem columnarOutput_run {P : Problem} (hE : EnvOK P.env) {h : Heap} {rs : List Nat} (hg : GoodPlan P.env P.fleet P.job h rs) (str : ℚ → Text) (uuid : Text)
    (seconds : ℚ) (hjob : P.trips ≠ []) (hne : P.vehicles ≠ []) :
    ∃ x h', columnarOutput str uuid seconds P rs h = (.ok (x.text str "  ".toList), h') ∧ GoodPlan P.env P.fleet P.job h' rs ∧
      ShowsPlan P.env P.ident P.vehicleIdent h' P.objective false P.job rs x := by
  have hrs : rs ≠ [] := by
    rintro rfl
    have := hg.planning.vehicles.length_eq
    rw [Problem.fleet, List.length_range] at this
    exact hne (List.length_eq_zero_iff.1 this.symm)
  have hj : P.job ≠ [] := by
    intro h0
    have := congrArg List.length h0
    rw [Problem.job, List.length_range] at this
    exact hjob (List.length_eq_zero_iff.1 this)
  obtain ⟨x, h', e, om, hs, hv, hx⟩ := C87_report_shows_the_schedule_partial hE h P.ident P.vehicleIdent uuid seconds P.objective false P.job rs
    List.nodup_range hj hrs hg.planning.sound (fun r hr t ht => hg.planning.job t (List.mem_flatMap.2 ⟨r, hr, ht⟩))
  refine ⟨x, h', ?_, hg.onlyMemos om.core hs, ?_⟩
  · unfold columnarOutput columnarFormat
    rw [Py.bind_ok e]
    rfl
  · obtain ⟨h1, h2, h3, h4, h5, h6⟩ := hx
    refine ⟨?_, ?_, ?_, h4, ?_, ?_⟩
    · rw [om.core]; exact h1
    · rw [om.core]; exact h2
    · rw [om.core]; exact h3
    · rw [om.core]; exact h5
    · rw [h6]
      exact forall₂_congr fun r hr => (hv r hr).symm

/-! ## C90 -/

section

variable {source text : Text} {w : Site} {str : ℚ → Text} {uuid : Text} {seconds : ℚ}

/-- The full claim C90: whatever the Cordeau-Laporte data, the solver with its default classes returns a result and prints the report
of it. -/
def EveryInstanceReported (optimize : Problem → M (List Nat)) : Prop :=
  ∀ (rows : Rows) (m n : Nat) (T Q L dx dy : ℚ) (euclid : Pos → Pos → ℚ) (source text : Text) (w : Site) (str : ℚ → Text) (uuid : Text) (seconds : ℚ),
    CordeauData rows m n T Q L dx dy → SensibleRows rows n → (∀ a b, 0 ≤ euclid a b) → w.file source = some text → FileText text rows →
    NoDangling w.data.2.core → ∃ P l w', (defaultSolver euclid (columnarOutput str uuid seconds) source optimize).solve w = (.ok (.result P l), w') ∧
      Reported str w w' P l

/-- Whatever the algorithm, if it yields good plans. -/
theorem cordeau_run {optimize : Problem → M (List Nat)} (ht : w.file source = some text) (hr : FileText text rows) (hd : CordeauData rows m n T Q L dx dy)
    (hs : SensibleRows rows n) (he : ∀ a b, 0 ≤ euclid a b) (hm : 0 < m) (hn : 0 < n)
    (hopt : ∀ P, CordeauProblem euclid rows m n T Q L dx dy P → EnvOK P.env → P.fleet ≠ [] →
      (∃ l h', optimize P w.data.2 = (.ok l, h') ∧ GoodPlan P.env P.fleet P.job h' l) ∨ ∃ h', optimize P w.data.2 = (.error .outOfFuel, h')) :
    ∃ P, CordeauProblem euclid rows m n T Q L dx dy P ∧ EnvOK P.env ∧ P.fleet ≠ [] ∧
    ((∃ l w', (defaultSolver euclid (columnarOutput str uuid seconds) source optimize).solve w = (.ok (.result P l), w') ∧ Reported str w w' P l ∧
      RequestsServed P.env rows n Q L w'.data.2 l) ∨
    ∃ h' w', optimize P w.data.2 = (.error .outOfFuel, h') ∧
      (defaultSolver euclid (columnarOutput str uuid seconds) source optimize).solve w = (.error .outOfFuel, w') ∧ w'.file = w.file ∧ w'.printed = w.printed) := by
  obtain ⟨trips, vehicles, s, s', e1, e2, hP⟩ := cordeau_problem hd euclid hr
  have hE := hP.envOK hs he
  have hv0 : vehicles ≠ [] := fun h => by have := hP.vehicles; rw [h] at this; simp at this; omega
  have ht0 : trips ≠ [] := fun h => by have := hP.trips; rw [h] at this; simp at this; omega
  have fne : (Problem.fleet ⟨euclid, .dialARide, trips, vehicles⟩) ≠ [] := by
    rw [Problem.fleet, hP.vehicles]
    simp [hm.ne']
  refine ⟨_, hP, hE, fne, ?_⟩
  have main := solve_default (euclid := euclid) (columnar := columnarOutput str uuid seconds) (optimize := optimize) ht e1 e2
  rcases hopt _ hP hE fne with ⟨l, h', e, hg⟩ | ⟨h', e⟩
  · left
    obtain ⟨x, h2, e3, hg2, hx⟩ := columnarOutput_run hE hg str uuid seconds ht0 hv0
    rw [e] at main
    simp only [e3] at main
    exact ⟨l, _, main, ⟨hg2, ⟨x, rfl, hx⟩, rfl⟩, hg2.requestsServed hP⟩
  · right
    rw [e] at main
    exact ⟨h', _, e, main, rfl, rfl⟩

/-- **C90, insertion, what holds.** From a file with Cordeau-Laporte data that make sense, at least one vehicle and one request, and
with distances that are not negative: the solver with its default classes returns a good plan and prints, as one text, the report of
it; served requests get what their rows and the header ask for, closing times as soon as possible (`RequestsServed`). No file is touched. Needed
are more rounds than requests, and that the sampling of the strategy ends. Missing: files without vehicles (`C90_no_vehicles`)
or without requests (`C90_no_requests`). -/
theorem C90_insertion_reported_partial (ht : w.file source = some text) (hr : FileText text rows) (hd : CordeauData rows m n T Q L dx dy)
    (hs : SensibleRows rows n) (he : ∀ a b, 0 ≤ euclid a b) (hm : 0 < m) (hn : 0 < n)
    {S : Problem → Heap → Settings} (hS : ∀ P h, (S P h).Of P.env P.fleet P.job) (hend : ∀ P h, (S P h).strategy.Ends)
    (nd : NoDangling w.data.2.core) {fuel : Nat} (hfuel : n < fuel) :
    ∃ P l w', (defaultSolver euclid (columnarOutput str uuid seconds) source fun P => insertionOptimize P.env P.objective (S P) fuel none).solve w =
        (.ok (.result P l), w') ∧
      CordeauProblem euclid rows m n T Q L dx dy P ∧ Reported str w w' P l ∧ RequestsServed P.env rows n Q L w'.data.2 l := by
  obtain ⟨P, hP, hE, hf, hrun⟩ := cordeau_run (str := str) (uuid := uuid) (seconds := seconds)
    (optimize := fun P => insertionOptimize P.env P.objective (S P) fuel none) ht hr hd hs he hm hn (fun P hP hE hf =>
      insertion_planned hE hf List.nodup_range (List.nodup_range (n := P.trips.length)) (hS P) nd P.objective)
  rcases hrun with ⟨l, w', e, h1, h2⟩ | ⟨h', w', e0, _⟩
  · exact ⟨P, l, w', e, hP, h1, h2⟩
  · obtain ⟨l, h2, e2⟩ := insertion_returns (fuel := fuel) hE hf List.nodup_range (List.nodup_range (n := P.trips.length)) (hS P) nd P.objective (hend P)
      (by rw [List.length_range, hP.trips]; exact hfuel)
    have e0' : insertionOptimize P.env P.objective (S P) fuel none w.data.2 = _ := e0
    have e2' : insertionOptimize P.env P.objective (S P) fuel none w.data.2 = _ := e2
    rw [e0'] at e2'
    cases e2'

/-- **C90, GRASP.** The same with GRASP as the algorithm: it prints the report, or a loop does not end within the rounds given and
nothing is printed; there is a number of rounds, depending only on the data and the threshold, for which it prints the report. -/
theorem C90_grasp_reported_partial (hr : FileText text rows) (hd : CordeauData rows m n T Q L dx dy)
    (hs : SensibleRows rows n) (he : ∀ a b, 0 ≤ euclid a b) (hm : 0 < m) (hn : 0 < n) (threshold : Nat) :
    ∃ N, ∀ (D : Nat → Heap → Draws) (S : Problem → Nat → Heap → Settings) (fuel : Nat) (seeds : Nat → Nat) (draw draw' : Nat → Nat → Nat)
      (episodes firstEpisodes : Nat) (w : Site), w.file source = some text → (∀ s h, (D s h).OK) → (∀ P s h, (S P s h).Of P.env P.fleet P.job) →
      NoDangling w.data.2.core → 0 < episodes → 0 < firstEpisodes →
      (∃ P l w', (defaultSolver euclid (columnarOutput str uuid seconds) source fun P =>
          graspOptimize P.env P.objective D (S P) threshold fuel seeds draw draw' episodes firstEpisodes).solve w = (.ok (.result P l), w') ∧
        CordeauProblem euclid rows m n T Q L dx dy P ∧ Reported str w w' P l ∧ RequestsServed P.env rows n Q L w'.data.2 l) ∨
      (∃ w', (defaultSolver euclid (columnarOutput str uuid seconds) source fun P =>
          graspOptimize P.env P.objective D (S P) threshold fuel seeds draw draw' episodes firstEpisodes).solve w = (.error .outOfFuel, w') ∧
          w'.file = w.file ∧ w'.printed = w.printed) ∧
        ((∀ P s h, (S P s h).strategy.Ends) → fuel < N) := by
  obtain ⟨trips, vehicles, s0, s0', e1, e2, hP0⟩ := cordeau_problem hd euclid hr
  have fne : (Problem.fleet ⟨euclid, .dialARide, trips, vehicles⟩) ≠ [] := by
    rw [Problem.fleet, hP0.vehicles]
    simp [hm.ne']
  obtain ⟨N, hN⟩ := C83_grasp_returns (hP0.envOK hs he) fne List.nodup_range (List.nodup_range (n := trips.length)) threshold (k := .dialARide) (by decide)
  refine ⟨N, ?_⟩
  intro D S fuel seeds draw draw' episodes firstEpisodes w ht hD hS nd hep hfe
  obtain ⟨P, hP, hE, hf, hrun⟩ := cordeau_run (str := str) (uuid := uuid) (seconds := seconds)
    (optimize := fun P => graspOptimize P.env P.objective D (S P) threshold fuel seeds draw draw' episodes firstEpisodes) ht hr hd hs he hm hn (by
      intro P hP hE hf
      rcases C83_grasp_whole (threshold := threshold) (fuel := fuel) (seeds := seeds) (draw := draw) (draw' := draw') hE hf List.nodup_range
        (List.nodup_range (n := P.trips.length)) hD (hS P) nd P.objective hep hfe with ⟨l, h', e, h1, h2, h3, h4, _⟩ | h
      · exact .inl ⟨l, h', e, h1, h2, h3, h4⟩
      · exact .inr h)
  have hsame : (defaultSolver euclid (columnarOutput str uuid seconds) source fun P =>
      graspOptimize P.env P.objective D (S P) threshold fuel seeds draw draw' episodes firstEpisodes).solve w = _ :=
    solve_default ht e1 e2
  rcases hrun with ⟨l, w', e, h1, h2⟩ | ⟨h', w', _, e, hw⟩
  · exact .inl ⟨P, l, w', e, hP, h1, h2⟩
  · refine .inr ⟨⟨w', e, hw⟩, fun hend => ?_⟩
    by_contra hc
    obtain ⟨l, h2, e3⟩ := hN D (S ⟨euclid, .dialARide, trips, vehicles⟩) fuel seeds draw draw' episodes firstEpisodes w.data.2 hD (hS _) (hend _) nd hep hfe (by omega)
    have hg : GoodPlan (Problem.env ⟨euclid, .dialARide, trips, vehicles⟩) (Problem.fleet ⟨euclid, .dialARide, trips, vehicles⟩)
        (Problem.job ⟨euclid, .dialARide, trips, vehicles⟩) h2 l := by
      rcases C83_grasp_whole (threshold := threshold) (fuel := fuel) (seeds := seeds) (draw := draw) (draw' := draw') (hP0.envOK hs he) fne List.nodup_range
        (List.nodup_range (n := trips.length)) hD (hS ⟨euclid, .dialARide, trips, vehicles⟩) nd .dialARide hep hfe with ⟨l', h', e', h1, h2, h3, h4, _⟩ | ⟨h', e'⟩
      · have := e'.symm.trans e3
        cases this
        exact ⟨h1, h2, h3, h4⟩
      · have := e'.symm.trans e3
        cases this
    obtain ⟨x, h3, e4, _⟩ := columnarOutput_run (hP0.envOK hs he) hg str uuid seconds (fun h => by have := hP0.trips; rw [h] at this; simp at this; omega)
      (fun h => by have := hP0.vehicles; rw [h] at this; simp at this; omega)
    rw [e] at hsame
    simp only [e3, e4] at hsame
    cases hsame

/-- Without requests, insertion returns a plan, but there is no coverage rate to report: the solver raises `ZeroDivisionError`
after optimising, and prints nothing. -/
theorem C90_no_requests (ht : w.file source = some text) (hr : FileText text rows) (hd : CordeauData rows m 0 T Q L dx dy)
    (he : ∀ a b, 0 ≤ euclid a b) (hm : 0 < m) {S : Problem → Heap → Settings} (hS : ∀ P h, (S P h).Of P.env P.fleet P.job)
    (hend : ∀ P h, (S P h).strategy.Ends) (nd : NoDangling w.data.2.core) {fuel : Nat} (hfuel : 0 < fuel) :
    ∃ w', (defaultSolver euclid (columnarOutput str uuid seconds) source fun P => insertionOptimize P.env P.objective (S P) fuel none).solve w =
      (.error .zeroDivision, w') ∧ w'.file = w.file ∧ w'.printed = w.printed := by
  obtain ⟨trips, vehicles, s, s', e1, e2, hP⟩ := cordeau_problem hd euclid hr
  have hE := hP.envOK ⟨fun k hk => by omega, fun k hk => by omega⟩ he
  have fne : (Problem.fleet ⟨euclid, .dialARide, trips, vehicles⟩) ≠ [] := by
    rw [Problem.fleet, hP.vehicles]
    simp [hm.ne']
  have ht0 : trips = [] := List.length_eq_zero_iff.1 hP.trips
  obtain ⟨l, h1, e3⟩ := insertion_returns (fuel := fuel) hE fne List.nodup_range (List.nodup_range (n := trips.length))
    (hS ⟨euclid, .dialARide, trips, vehicles⟩) nd .dialARide (hend _) (by rw [List.length_range, ht0]; exact hfuel)
  have hg : GoodPlan (Problem.env ⟨euclid, .dialARide, trips, vehicles⟩) (Problem.fleet ⟨euclid, .dialARide, trips, vehicles⟩)
      (Problem.job ⟨euclid, .dialARide, trips, vehicles⟩) h1 l := by
    rcases insertion_planned (fuel := fuel) hE fne List.nodup_range (List.nodup_range (n := trips.length))
      (hS ⟨euclid, .dialARide, trips, vehicles⟩) nd .dialARide with ⟨l', h', e', hg⟩ | ⟨h', e'⟩
    · have := e'.symm.trans e3
      cases this
      exact hg
    · have := e'.symm.trans e3
      cases this
  have hz := (C87_raises_iff hE h1 (Problem.ident ⟨euclid, .dialARide, trips, vehicles⟩) (Problem.vehicleIdent ⟨euclid, .dialARide, trips, vehicles⟩) uuid seconds
    .dialARide false (Problem.job ⟨euclid, .dialARide, trips, vehicles⟩) l List.nodup_range hg.planning.sound
    (fun r hr t ht => hg.planning.job t (List.mem_flatMap.2 ⟨r, hr, ht⟩))).1.2 (by rw [Problem.job, ht0]; rfl)
  obtain ⟨h2, e4⟩ : ∃ h2, columnarOutput str uuid seconds ⟨euclid, .dialARide, trips, vehicles⟩ l h1 = (.error .zeroDivision, h2) := by
    unfold columnarOutput columnarFormat
    exact ⟨_, Py.bind_error (Prod.ext hz rfl)⟩
  have main := solve_default (euclid := euclid) (columnar := columnarOutput str uuid seconds)
    (optimize := fun P => insertionOptimize P.env P.objective (S P) fuel none) ht e1 e2
  simp only [e3, e4] at main
  exact ⟨_, main, rfl, rfl⟩

/-- Without vehicles there is no verdict on the planning to log: the algorithm raises `TypeError`, and nothing is printed. -/
theorem C90_no_vehicles (ht : w.file source = some text) (hr : FileText text rows) (hd : CordeauData rows 0 n T Q L dx dy)
    (hs : SensibleRows rows n) (he : ∀ a b, 0 ≤ euclid a b) {S : Problem → Heap → Settings} (hS : ∀ P h, (S P h).Of P.env P.fleet P.job)
    (hend : ∀ P h, (S P h).strategy.Ends) {fuel : Nat} (hfuel : n < fuel) :
    ∃ w', (defaultSolver euclid (columnarOutput str uuid seconds) source fun P => insertionOptimize P.env P.objective (S P) fuel none).solve w =
      (.error .typeError, w') ∧ w'.file = w.file ∧ w'.printed = w.printed := by
  obtain ⟨trips, vehicles, s, s', e1, e2, hP⟩ := cordeau_problem hd euclid hr
  have hE := hP.envOK hs he
  have hv0 : vehicles = [] := List.length_eq_zero_iff.1 hP.vehicles
  obtain ⟨o1, o2, o3, o4, o5⟩ := hS ⟨euclid, .dialARide, trips, vehicles⟩ w.data.2
  have c := C28_accounts (S := S ⟨euclid, .dialARide, trips, vehicles⟩ w.data.2) (initial := none) (h := w.data.2) (by rw [o1]; exact hE) o4
    ⟨by rw [o2]; exact List.nodup_range, by rw [o3]; exact List.nodup_range⟩ o5 (fun _ h => nomatch h)
  obtain ⟨h1, e3⟩ : ∃ h1, insertionOptimize (Problem.env ⟨euclid, .dialARide, trips, vehicles⟩) .dialARide
      (S ⟨euclid, .dialARide, trips, vehicles⟩) fuel none w.data.2 = (.error .typeError, h1) := by
    rcases ei : insertionAlgorithm (S ⟨euclid, .dialARide, trips, vehicles⟩ w.data.2) none fuel (.initial w.data.2) with ⟨er | rs, st⟩
    · exact ((c.2.2 fuel er st (by rw [o3, Problem.job, List.length_range, hP.trips]; exact hfuel) ei).1 (hend _ _)).elim
    · have hp := (c.2.1 fuel rs st ei).vehicles
      rw [o2, Problem.fleet, hP.vehicles] at hp
      have hrs : rs = [] := List.map_eq_nil_iff.1 (List.perm_nil.1 hp)
      subst hrs
      refine ⟨st.heap, ?_⟩
      unfold insertionOptimize logged
      exact (Py.bind_ok (a := []) (s' := st.heap) (by simp only [insertionPlanning, ei])).trans rfl
  have main := solve_default (euclid := euclid) (columnar := columnarOutput str uuid seconds)
    (optimize := fun P => insertionOptimize P.env P.objective (S P) fuel none) ht e1 e2
  simp only [e3] at main
  exact ⟨_, main, rfl, rfl⟩

end

/-! ## Cases -/

/-- A file with two vehicles and no requests. -/
theorem noRequests_shape : CordeauData [[2, 0, 480, 6, 90], [0, 1, 2, 0, 0, 0, 1440]] 2 0 480 6 90 1 2 where
  header := ⟨0, [], rfl, by norm_num, by norm_num⟩
  depot := ⟨0, _, rfl⟩
  requests := fun k hk => by omega
  loads := fun k hk => by omega

theorem noRequests_rows : FileText (plainText [[2, 0, 480, 6, 90], [0, 1, 2, 0, 0, 0, 1440]]) [[2, 0, 480, 6, 90], [0, 1, 2, 0, 0, 0, 1440]] :=
  fileData_iff.1 (C84_plain_rows [[2, 0, 480, 6, 90], [0, 1, 2, 0, 0, 0, 1440]])

/-- C90 is false: a file without requests. -/
theorem C90_not_every_instance {S : Problem → Heap → Settings} (hS : ∀ P h, (S P h).Of P.env P.fleet P.job)
    (hend : ∀ P h, (S P h).strategy.Ends) {fuel : Nat} (hfuel : 0 < fuel) :
    ¬ EveryInstanceReported fun P => insertionOptimize P.env P.objective (S P) fuel none := by
  intro hc
  let w : Site := ⟨({ content := .ok [] }, .empty), fun _ => some (plainText [[2, 0, 480, 6, 90], [0, 1, 2, 0, 0, 0, 1440]]), [], [], []⟩
  obtain ⟨P, l, w', e, _⟩ := hc _ 2 0 480 6 90 1 2 manhattan [] _ w (fun _ => []) [] 0 noRequests_shape ⟨fun k hk => by omega, fun k hk => by omega⟩ manhattan_nonneg rfl
    noRequests_rows empty_noDangling
  obtain ⟨w'', e', _⟩ := C90_no_requests (source := []) (w := w) (str := (fun _ => [])) (uuid := []) (seconds := 0) (euclid := manhattan) rfl noRequests_rows
    noRequests_shape manhattan_nonneg (by omega) hS hend empty_noDangling hfuel
  rw [e] at e'
  cases e'

/-- The text of the demo problem: two vehicles, two requests. -/
def demoCordeauText : Text :=
  "2 4 480 6 90\n0 1 2 0 0 100 1440\n1 5 6 10 1 0 1440\n2 7 8 10 2 30 60\n3 9 10 10 -1 40 80\n4 11 12 10 -2 0 1440\n".toList

theorem demoCordeauText_rows : FileText demoCordeauText demoCordeau := fileData_iff.1 (by decide +kernel)

theorem demoCordeau_sensible : SensibleRows demoCordeau 2 where
  duration := by
    rintro k hk row x y d q e l h ⟨_, _, rfl⟩
    interval_cases k <;> simp [demoCordeau] at h <;> obtain ⟨_, _, _, h, _⟩ := h <;> rw [← h] <;> norm_num
  load := by
    rintro k hk row q h ⟨x, y, d, e, l, ⟨_, _, rfl⟩⟩
    interval_cases k <;> simp [demoCordeau] at h <;> obtain ⟨_, _, _, _, h, _⟩ := h <;> rw [← h] <;> norm_num

/-- Settings with sampling of 128 pairs, as by default, and a stream that draws them one after the other. -/
def samplingSettings (P : Problem) : Settings := plainSettings P.env P.fleet P.job (.sampling 128 128 fun _ => inTurn) 1

theorem samplingSettings_of (P : Problem) : (samplingSettings P).Of P.env P.fleet P.job := by
  refine ⟨rfl, rfl, rfl, ⟨fun _ l => .refl l, fun _ _ h => h, ?_⟩, Nat.one_pos⟩
  rintro _ _ _ ⟨⟩ m k lo hi h
  exact inTurn_randInt k lo hi h

/-- The hypotheses of C90 hold: the solver with its default classes prints the report for the demo problem. -/
example : ∃ P l w', (defaultSolver manhattan (columnarOutput (fun _ => []) [] 0) "a.txt".toList fun P =>
      insertionOptimize P.env P.objective (fun _ => samplingSettings P) 5 none).solve ⟨({ content := .ok [] }, .empty), fun _ => some demoCordeauText, [], [], []⟩ =
        (.ok (.result P l), w') ∧
    CordeauProblem manhattan demoCordeau 2 2 480 6 90 1 2 P ∧
    Reported (fun _ => []) ⟨({ content := .ok [] }, .empty), fun _ => some demoCordeauText, [], [], []⟩ w' P l ∧ RequestsServed P.env demoCordeau 2 6 90 w'.data.2 l :=
  C90_insertion_reported_partial (text := demoCordeauText) rfl demoCordeauText_rows demoCordeau_shape demoCordeau_sensible manhattan_nonneg (by omega) (by omega)
    (S := fun P _ => samplingSettings P) (fun P _ => samplingSettings_of P) (fun _ _ => ends_inTurn 128) empty_noDangling (by omega)

/-! ## `None` -/

/-- `None` as formatter of loader and storer stands for the default one: the solver runs as without it. -/
theorem C90_none_is_default (euclid : Pos → Pos → ℚ) (columnar : OutputFormat) (source : Text) (optimize : Problem → M (List Nat)) (w : Site) :
    ({ defaultSolver euclid columnar source optimize with
      loaderKwargs := [("file_path", .path source), ("formatter_cls", .arg .none)]
      storerKwargs := [("formatter_cls", .arg .none)] } : Solver Site Item).solve w =
    (defaultSolver euclid columnar source optimize).solve w := by
  have hl : tuned (fileLoader euclid) [("file_path", .path source), ("formatter_cls", .arg .none)] [] = tuned (fileLoader euclid) [("file_path", .path source)] [] := rfl
  have hs : ∀ x : Item, tuned (promptStorer columnar) [("formatter_cls", .arg .none)] [("result", x)] = tuned (promptStorer columnar) [] [("result", x)] := by
    intro x
    cases x <;> rfl
  unfold Solver.solve defaultSolver
  simp only [List.isEmpty_nil, if_true]
  unfold staticRun
  simp only [hl, hs]

end Jinete
