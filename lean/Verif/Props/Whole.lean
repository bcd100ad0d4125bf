import Verif.Proofs.FiniteValues
import Verif.Proofs.SearchRuns

/-!
# Whole algorithms (C81, C82, C83)

Local search with reallocation, the default stages of the sequential algorithm and GRASP with its default algorithms, from
construction to result, on the heap.
-/

set_option autoImplicit false

namespace Jinete

variable {E : Env} {fleet job : List Nat} {W : List Nat → Prop} {K : Nat → List Duty → Prop} {md : Mode} {k : Objective} {c0 : Core} {rs0 : List Nat}

local notation "V" => plannedValued E fleet job W K md k c0 rs0

theorem logResult_safe (hE : EnvOK E) (hf : fleet ≠ []) {X : Err → Prop} (r : List Nat) (s : Heap) (hg : (V).Good s) (ha : (V).Alive s r) :
    Meets (logResult E k r) s (fun _ s' => (V).Follows s s') X := by
  obtain ⟨h', e, g⟩ := logResult_run (k := k) hE hf ha
  exact .of_ok e (follows_of_growsV hg g)

/-- What is fixed while the algorithms run. -/
structure RunSetting (E : Env) (fleet job : List Nat) (W : List Nat → Prop) (K : Nat → List Duty → Prop) (md : Mode) : Prop where
  env : EnvOK E
  timeout : md = .exact → ∀ t, (E.trip t).timeout = .inf
  some : fleet ≠ []
  fleetNodup : fleet.Nodup
  perm : ∀ l l', l.Perm l' → W l → W l'
  movable : Movable E job K

/-- What insertion asks for besides. -/
structure InsertSetting (E : Env) (fleet job : List Nat) (W : List Nat → Prop) (K : Nat → List Duty → Prop) : Prop where
  jobNodup : job.Nodup
  all : ∀ l, l.Nodup → (∀ t ∈ l, t ∈ job) → W l
  idle : ∀ v ∈ fleet, K v (idleDuties E v)

theorem pass_improves (F : RunSetting E fleet job W K md) {D : Heap → Draws} (hD : ∀ h, (D h).OK) (b : List Nat) (s : Heap) (hg : (V).Good s)
    (ha : (V).Alive s b) : ∃ c s1, reallocationPass E k D b s = (.ok c, s1) ∧ (V).Follows s s1 ∧ (V).Alive s1 c ∧ c ≠ b := by
  obtain ⟨l, h', e, f, p, hne, _⟩ := reallocationPass_run (k := k) (c0 := c0) (rs0 := rs0) F.env F.timeout F.some F.fleetNodup F.perm F.movable hD hg ha
  exact ⟨l, h', e, f, p, hne⟩

/-- The local search on a planning with routes. -/
theorem localSearchOptimize_some {D : Heap → Draws} {threshold fuel : Nat} {rs : List Nat} (h : rs ≠ []) :
    localSearchOptimize E k D threshold fuel (some rs) =
      logged (logResult E k) (localSearch (reallocationPass E k D) (resultValue E k) threshold fuel rs 0) := by
  cases rs with
  | nil => exact absurd rfl h
  | cons r l => rfl

theorem localSearchOptimize_safe (F : RunSetting E fleet job W K md) {D : Heap → Draws} (hD : ∀ h, (D h).OK) {threshold fuel : Nat} {X : Err → Prop}
    (hX : X .outOfFuel) {r : List Nat} {s : Heap} (hg : (V).Good s) (ha : (V).Alive s r) :
    (V).Safe X s (localSearchOptimize E k D threshold fuel (some r)) := by
  rw [localSearchOptimize_some (ha.ne_nil F.some)]
  exact logged_safe (fun r s => logResult_safe F.env F.some r s)
    ((localSearch_safe (pass_improves F hD) fuel r 0 s hg ha).monoX (by rintro e rfl; exact hX))

theorem localSearchOptimize_notWorse (F : RunSetting E fleet job W K md) {D : Heap → Draws} (hD : ∀ h, (D h).OK) {threshold fuel : Nat} (r : List Nat) :
    (V).NotWorse r (localSearchOptimize E k D threshold fuel (some r)) := by
  intro s x s' hg ha h
  rw [localSearchOptimize_some (ha.ne_nil F.some)] at h
  obtain ⟨s1, h, hl⟩ := logged_ok h
  obtain ⟨f, hx, hle, _⟩ := C39_local_search_not_worse (V) (reallocationPass E k D) threshold fuel (by
    intro b s c s1 hg ha e
    obtain ⟨c', s1', e', h1, h2, h3⟩ := pass_improves F hD b s hg ha
    rw [e] at e'; cases e'
    exact ⟨h1, h2, h3⟩) r x s s1 hg ha h
  have g := (logResult_safe (X := fun _ => False) F.env F.some x s1 f.1 hx).ok hl
  exact ⟨f.trans g, (g.2 x hx).1, by rw [(g.2 x hx).2]; exact hle⟩

/-- The errors of insertions. -/
def InsertErr (S : Heap → Settings) (fuel : Nat) (job : List Nat) (e : Err) : Prop :=
  (∃ h, (S h).strategy.Hangs e) ∨ e = .outOfFuel ∧ fuel ≤ job.length

theorem insertionOptimize_safe (F : RunSetting E fleet job W K md) (G : InsertSetting E fleet job W K) {S : Heap → Settings}
    (hS : ∀ h, (S h).Of E fleet job) {fuel : Nat} {X : Err → Prop} (hX : ∀ e, InsertErr S fuel job e → X e) {initial : Option (List Nat)} {s : Heap}
    (hg : (V).Good s) (ha : ∀ r, initial = some r → (V).Alive s r) : (V).Safe X s (insertionOptimize E k S fuel initial) := by
  refine logged_safe (fun r s => logResult_safe F.env F.some r s) ?_
  rcases insertionPlanning_run F.env F.timeout F.fleetNodup G.jobNodup G.all F.movable G.idle (hS s) (k := k) hg ha fuel with
    ⟨l, h', e, f, p, _⟩ | ⟨e, h', h1, h2⟩
  · exact .of_ok e ⟨f, p⟩
  · refine .of_error h1 (hX e ?_)
    rcases h2 with h2 | h2
    · exact .inl ⟨s, h2⟩
    · exact .inr h2

theorem insertionOptimize_notWorse (F : RunSetting E fleet job W K md) (G : InsertSetting E fleet job W K) {S : Heap → Settings}
    (hS : ∀ h, (S h).Of E fleet job) {fuel : Nat} (r : List Nat) :
    (plannedValued E fleet job W K md .dialARide c0 rs0).NotWorse r (insertionOptimize E .dialARide S fuel (some r)) := by
  intro s x s' hg ha h
  obtain ⟨s1, h, hl⟩ := logged_ok h
  rcases insertionPlanning_run F.env F.timeout F.fleetNodup G.jobNodup G.all F.movable G.idle (hS s) (k := .dialARide) hg
    (initial := some r) (by rintro _ ⟨⟩; exact ha) fuel with ⟨l, h', e, f, p, hgr⟩ | ⟨e, h', h1, h2⟩
  · have h : insertionPlanning (S s) (some r) fuel s = (.ok x, s1) := h
    rw [e] at h
    cases h
    have g := (logResult_safe (X := fun _ => False) F.env F.some x s1 f.1 p).ok hl
    refine ⟨f.trans g, (g.2 x p).1, ?_⟩
    rw [(g.2 x p).2]
    have ha : PlanInv E fleet job W K md s r := ha
    exact (hgr r rfl).not_worse ha.vehicles p.vehicles F.fleetNodup
  · have h : insertionPlanning (S s) (some r) fuel s = (.ok x, s1) := h
    rw [h1] at h
    cases h

/-! ## Plannings in terms of the specification -/

theorem proper_movable (P : Prop) : Movable E job fun v ds => P → Proper E v ds where
  insert v ds t i j h ht hij hj hP := by
    obtain ⟨mid, rfl, hm⟩ := h hP
    obtain ⟨j', rfl⟩ : ∃ j', j = j' + 1 := ⟨j - 1, by omega⟩
    simp only [List.length_cons, List.length_append, List.length_nil] at hj
    have hj : j' ≤ mid.length := by omega
    refine ⟨mid.take i ++ pickDuty E t :: ((mid.take j').drop i ++ dropDuty E t :: mid.drop j'), ?_, ?_⟩
    · unfold withTrip
      have h1 : i - mid.length = 0 := by omega
      have h2 : j' - mid.length = 0 := by omega
      simp [List.take_append, List.drop_append, h1, h2]
    · intro d hd
      simp only [List.mem_append, List.mem_cons] at hd
      rcases hd with hd | rfl | hd | rfl | hd
      · exact hm d (List.mem_of_mem_take hd)
      · exact ⟨t, .inl rfl⟩
      · exact hm d (List.mem_of_mem_take (List.mem_of_mem_drop hd))
      · exact ⟨t, .inr rfl⟩
      · exact hm d (List.mem_of_mem_drop hd)
  remove v ds t h hP := by
    obtain ⟨mid, rfl, hm⟩ := h hP
    refine ⟨withoutTrip t mid, by simp [withoutTrip], fun d hd => hm d (List.mem_filter.1 hd).1⟩

theorem proper_idle (v : Nat) : Proper E v (idleDuties E v) := ⟨[], rfl, by simp⟩

theorem PlanInv.forProblem {h : Heap} {rs : List Nat} (p : PlanInv E fleet job W K md h rs) : PlanningFor E fleet job h rs :=
  ⟨p.sound, p.vehicles, p.trips, p.job, p.single⟩

theorem PlanInv.loosely {h : Heap} {rs : List Nat} (p : PlanInv E fleet job W K md h rs) (hm : md ≠ .any) : ServesLoosely E h rs := by
  intro r hr
  rcases p.fits r hr with f | f
  · exact .inl f
  · exact .inr (looselyFeasible_of (p.wf r hr) hm f)

theorem PlanInv.feasibly {h : Heap} {rs : List Nat} (p : PlanInv E fleet job W K .exact h rs) (hv : ∀ v, (E.vehicle v).timeout = .inf) :
    ServesFeasibly E h rs := by
  intro r hr
  rcases p.fits r hr with f | f
  · exact .inl f
  · exact .inr (feasible_of (p.wf r hr) (vehV_of_endsV (hv _) (f.ends (fun h => nomatch h) rfl)) (f.trips rfl))

theorem RoutesKept.leftAlone {h h' : Heap} {rs : List Nat} (a : RoutesKept h.core rs h'.core) (hs : ∀ r ∈ rs, Sound E h' r) : LeftAlone E h h' rs :=
  fun r hr => ⟨hs r hr, (a r hr).2⟩

theorem RoutesKept.self {c : Core} {rs : List Nat} (hw : ∀ r ∈ rs, WellFormed c r) : RoutesKept c rs c := fun r hr => ⟨hw r hr, rfl, rfl⟩

/-- A given planning, in the terms of the proofs. -/
theorem PlanningFor.planned {h : Heap} {rs : List Nat} (p : PlanningFor E fleet job h rs) (hfn : fleet.Nodup) (hW : W (rs.flatMap (tripsOf h.core)))
    (hK : ∀ r ∈ rs, K (h.core.route r).vehicle (duties h.core r)) : PlanInv E fleet job W K .any h rs where
  inv := OnePerVehicle.inv ⟨p.sound, p.vehicles.nodup_iff.2 hfn, p.trips⟩
  vehicles := p.vehicles
  trips := p.trips
  job := p.job
  work := hW
  single := p.single
  fits _ _ := .inr ⟨fun h => (h rfl).elim, fun _ _ _ => ⟨fun h => (h rfl).elim, fun h => nomatch h⟩⟩
  kept := hK

/-! ## C81 -/

/-- **C81.** Local search with reallocation as a whole, for every objective, threshold, random draws and set orders: it
returns, or makes more than `fuel` rounds; it never raises. The result has one sound route per vehicle and serves exactly
the trips of the initial planning, its value is not lower, and the routes of the initial planning are left as they were. If
these are as they should be (`ProperRoutes`), so are those of the result. -/
theorem C81_local_search_whole (hE : EnvOK E) {D : Heap → Draws} (hD : ∀ h, (D h).OK) {h : Heap} (nd : NoDangling h.core) {rs : List Nat}
    (hne : rs ≠ []) (hone : OnePerVehicle E h rs) (hs : ∀ r ∈ rs, SingleVisits (duties h.core r)) (k : Objective) (threshold fuel : Nat) :
    (∃ l h', localSearchOptimize E k D threshold fuel (some rs) h = (.ok l, h') ∧ OnePerVehicle E h' l ∧ SameWork h.core rs h'.core l ∧
      (∀ q ∈ l, SingleVisits (duties h'.core q)) ∧ (ProperRoutes E h rs → ProperRoutes E h' l) ∧ LeftAlone E h h' rs ∧
      planningValue E k (rs.map (planOf E h.core)) ≤ planningValue E k (l.map (planOf E h'.core))) ∨
    ∃ h', localSearchOptimize E k D threshold fuel (some rs) h = (.error .outOfFuel, h') := by
  have F : RunSetting E (rs.map fun r => (h.core.route r).vehicle) (rs.flatMap (tripsOf h.core)) (·.Perm (rs.flatMap (tripsOf h.core))) (fun v ds => ProperRoutes E h rs → Proper E v ds)
      .any :=
    ⟨hE, (fun h => nomatch h), by simpa using hne, hone.vehicles, fun _ _ a b => a.symm.trans b, proper_movable _⟩
  have p : PlanInv E (rs.map fun r => (h.core.route r).vehicle) (rs.flatMap (tripsOf h.core)) (·.Perm (rs.flatMap (tripsOf h.core))) (fun v ds => ProperRoutes E h rs → Proper E v ds)
      .any h rs :=
    PlanningFor.planned ⟨hone.sound, .refl _, hone.trips, fun _ h => h, hs⟩ hone.vehicles (.refl _) fun r hr hP => hP r hr
  have hg : (plannedValued E (rs.map fun r => (h.core.route r).vehicle) (rs.flatMap (tripsOf h.core)) (·.Perm (rs.flatMap (tripsOf h.core)))
      (fun v ds => ProperRoutes E h rs → Proper E v ds) .any k h.core rs).Good h := ⟨nd, .self p.wf⟩
  rcases e : localSearchOptimize E k D threshold fuel (some rs) h with ⟨er | l, h'⟩
  · right
    have := (localSearchOptimize_safe (k := k) (X := (· = .outOfFuel)) F hD rfl hg p).error e
    exact ⟨h', by rw [this]⟩
  · left
    obtain ⟨f, q, hle⟩ := localSearchOptimize_notWorse (k := k) F hD rs h l h' hg p e
    have q : PlanInv E _ _ _ _ .any h' l := q
    have p' : PlanInv E _ _ _ _ .any h' rs := (f.2 rs p).1
    exact ⟨l, h', rfl, q.onePerVehicle hone.vehicles, ⟨q.vehicles, q.work⟩, q.single, fun hP r hr => q.kept r hr hP, f.1.2.leftAlone p'.sound, hle⟩

/-- **C81, feasibility.** From routes built by the public operations that serve nothing or meet the constraints, local search
with reallocation yields such routes: `ServesLoosely` always, and with all constraints if there are no ride
limits and no maximum durations of routes. -/
theorem C81_local_search_feasible (hE : EnvOK E) {D : Heap → Draws} (hD : ∀ h, (D h).OK) {h : Heap} (nd : NoDangling h.core) (hreach : Reach E h)
    {rs : List Nat} (hne : rs ≠ []) (hrs : ∀ r ∈ rs, r < h.core.nRoute) (hv : (rs.map fun r => (h.core.route r).vehicle).Nodup)
    (ht : (rs.flatMap (tripsOf h.core)).Nodup) (k : Objective) (threshold fuel : Nat) {l : List Nat} {h' : Heap}
    (e : localSearchOptimize E k D threshold fuel (some rs) h = (.ok l, h')) :
    (ServesLoosely E h rs → ServesLoosely E h' l) ∧
    ((∀ t, (E.trip t).timeout = .inf) → (∀ v, (E.vehicle v).timeout = .inf) → ServesFeasibly E h rs → ServesFeasibly E h' l) := by
  have main : ∀ md, (md = .exact → ∀ t, (E.trip t).timeout = .inf) → (∀ r ∈ rs, Fine E md h.core r) →
      PlanInv E (rs.map fun r => (h.core.route r).vehicle) (rs.flatMap (tripsOf h.core)) (fun _ => True) (fun _ _ => True) md h' l := by
    intro md hx hfine
    have inv := (hreach.inv (md := md) hE hx).subset (R' := (· ∈ rs)) fun q hq => hrs q hq
    have p : PlanInv E (rs.map fun r => (h.core.route r).vehicle) (rs.flatMap (tripsOf h.core)) (fun _ => True) (fun _ _ => True) md h rs :=
      ⟨inv, .refl _, ht, fun _ h => h, trivial, fun r hr => hreach.single hE r (hrs r hr), hfine, fun _ _ => trivial⟩
    have F : RunSetting E (rs.map fun r => (h.core.route r).vehicle) (rs.flatMap (tripsOf h.core)) (fun _ => True) (fun _ _ => True) md :=
      ⟨hE, hx, by simpa using hne, hv, fun _ _ _ _ => trivial, movable_true⟩
    exact (localSearchOptimize_notWorse (k := k) (c0 := h.core) (rs0 := []) F hD rs h l h' ⟨nd, by simp [RoutesKept]⟩ p e).2.1
  have hwf : ∀ r ∈ rs, WellFormed h.core r := fun r hr => (hreach.inv (md := .any) hE (fun h => nomatch h)).ok.wf r (hrs r hr)
  refine ⟨fun hl => (main .sound (fun h => nomatch h) fun r hr => ?_).loosely (fun h => nomatch h), fun hinf hvinf hl =>
    (main .exact (fun _ => hinf) fun r hr => ?_).feasibly hvinf⟩
  · exact (hl r hr).imp id fun a => verdict_of_loose (hwf r hr) a
  · exact (hl r hr).imp id fun a => verdict_of_feasible (hwf r hr) a

/-- **C81, termination.** With the Dial-a-Ride or the Hash Code objective there is a number of rounds, depending on neither the random draws
nor the set orders, after which local search with reallocation has returned. -/
theorem C81_local_search_returns (hE : EnvOK E) {h : Heap} (nd : NoDangling h.core) {rs : List Nat}
    (hne : rs ≠ []) (hone : OnePerVehicle E h rs) (hs : ∀ r ∈ rs, SingleVisits (duties h.core r)) (threshold : Nat)
    {k : Objective} (hk : k ≠ .taxiSharing) :
    ∃ n, ∀ D : Heap → Draws, (∀ h, (D h).OK) → ∀ fuel, n ≤ fuel →
      ∃ l h', localSearchOptimize E k D threshold fuel (some rs) h = (.ok l, h') := by
  let A : List Duty := rs.flatMap (duties h.core) ++ (rs.flatMap (tripsOf h.core)).flatMap fun t => [pickDuty E t, dropDuty E t]
  let m : Nat := (rs.flatMap (duties h.core)).length
  obtain ⟨values, hv⟩ := finite_values E (rs.map fun r => (h.core.route r).vehicle) (rs.flatMap (tripsOf h.core)) A m hk
  have F : RunSetting E (rs.map fun r => (h.core.route r).vehicle) (rs.flatMap (tripsOf h.core)) (fun _ => True) (fun _ => Within A m) .any :=
    ⟨hE, (fun h => nomatch h), by simpa using hne, hone.vehicles, fun _ _ _ _ => trivial, within_movable fun t ht =>
      ⟨List.mem_append_right _ (List.mem_flatMap.2 ⟨t, ht, by simp⟩), List.mem_append_right _ (List.mem_flatMap.2 ⟨t, ht, by simp⟩)⟩⟩
  have p : PlanInv E (rs.map fun r => (h.core.route r).vehicle) (rs.flatMap (tripsOf h.core)) (fun _ => True) (fun _ => Within A m) .any h rs :=
    PlanningFor.planned ⟨hone.sound, .refl _, hone.trips, fun _ h => h, hs⟩ hone.vehicles trivial fun r hr =>
      ⟨fun d hd => List.mem_append_left _ (List.mem_flatMap.2 ⟨r, hr, hd⟩), by
        refine le_trans List.countP_le_length ?_
        show (duties h.core r).length ≤ (rs.flatMap (duties h.core)).length
        obtain ⟨a, b, rfl⟩ := List.append_of_mem hr
        simp only [List.flatMap_append, List.flatMap_cons, List.length_append]
        omega⟩
  have hg : (plannedValued E (rs.map fun r => (h.core.route r).vehicle) (rs.flatMap (tripsOf h.core)) (fun _ => True) (fun _ => Within A m) .any k h.core []).Good h := ⟨nd, by simp [RoutesKept]⟩
  refine ⟨values.card * (threshold + 1) + threshold + 1, fun D hD fuel hn => ?_⟩
  obtain ⟨x, s', e⟩ := localSearch_bound_all (k := threshold) (pass_improves (k := k) (c0 := h.core) (rs0 := []) F hD) values
    (fun s r _ ha => hv _ _ s r ha) hg p hn
  have := localSearch_safe (k := threshold) (pass_improves (k := k) (c0 := h.core) (rs0 := []) F hD) fuel rs 0 h hg p
  obtain ⟨f, hx⟩ := this.ok e
  obtain ⟨h2, e2, _⟩ := logResult_run (k := k) hE F.some hx
  refine ⟨x, h2, ?_⟩
  rw [localSearchOptimize_some hne]
  unfold logged
  rw [Py.bind_ok e, Py.bind_ok e2]
  rfl

/-! ## C82 -/

/-- **C82.** The default stages of the sequential algorithm, local search with reallocation and then insertion, started from
a planning for the problem, return a planning for the problem that is not worse under the Dial-a-Ride objective; or they
raise `outOfFuel`, that is, local search does not end within the rounds given, or a sampling strategy does not end. If the
routes given are as they should be, so are those returned. -/
theorem C82_default_stages_not_worse (hE : EnvOK E) (hf : fleet ≠ []) (hfn : fleet.Nodup) (hjn : job.Nodup) {D : Heap → Draws} (hD : ∀ h, (D h).OK)
    {S : Heap → Settings} (hS : ∀ h, (S h).Of E fleet job) {h : Heap} (nd : NoDangling h.core) {rs : List Nat} (hp : PlanningFor E fleet job h rs)
    (threshold fuel : Nat) :
    (∃ l h', sequential (defaultStages E .dialARide D S threshold fuel) (some rs) h = (.ok l, h') ∧ PlanningFor E fleet job h' l ∧
      (ProperRoutes E h rs → ProperRoutes E h' l) ∧ LeftAlone E h h' rs ∧
      planningValue E .dialARide (rs.map (planOf E h.core)) ≤ planningValue E .dialARide (l.map (planOf E h'.core))) ∨
    ∃ h', sequential (defaultStages E .dialARide D S threshold fuel) (some rs) h = (.error .outOfFuel, h') := by
  have F : RunSetting E fleet job (fun _ => True) (fun v ds => ProperRoutes E h rs → Proper E v ds) .any := ⟨hE, (fun h => nomatch h), hf, hfn, fun _ _ _ _ => trivial, proper_movable _⟩
  have G : InsertSetting E fleet job (fun _ => True) (fun v ds => ProperRoutes E h rs → Proper E v ds) := ⟨hjn, fun _ _ _ => trivial, fun v _ _ => proper_idle v⟩
  have p : PlanInv E fleet job (fun _ => True) (fun v ds => ProperRoutes E h rs → Proper E v ds) .any h rs := hp.planned hfn trivial fun r hr hP => hP r hr
  have hg : (plannedValued E fleet job (fun _ => True) (fun v ds => ProperRoutes E h rs → Proper E v ds) .any .dialARide h.core rs).Good h := ⟨nd, .self p.wf⟩
  have hX : ∀ e, InsertErr S fuel job e → e = .outOfFuel := by
    rintro e (⟨_, h1⟩ | h1)
    · exact h1.1
    · exact h1.1
  rcases e : sequential (defaultStages E .dialARide D S threshold fuel) (some rs) h with ⟨er | l, h'⟩
  · right
    have := (sequential_safe (X := (· = .outOfFuel)) (stages := defaultStages E .dialARide D S threshold fuel) (by
      intro st hst s r hg ha
      simp only [defaultStages, List.mem_cons, List.not_mem_nil, or_false] at hst
      rcases hst with rfl | rfl
      · exact localSearchOptimize_safe (X := (· = .outOfFuel)) F hD rfl hg ha
      · exact insertionOptimize_safe F G hS hX hg (by rintro _ ⟨⟩; exact ha)) hg p).error e
    exact ⟨h', by rw [this]⟩
  · left
    obtain ⟨f, q, hle⟩ := C46_sequential_not_worse (plannedValued E fleet job (fun _ => True) (fun v ds => ProperRoutes E h rs → Proper E v ds) .any .dialARide h.core rs)
      (defaultStages E .dialARide D S threshold fuel) rs (by
        intro st hst r
        simp only [defaultStages, List.mem_cons, List.not_mem_nil, or_false] at hst
        rcases hst with rfl | rfl
        · exact localSearchOptimize_notWorse F hD r
        · exact insertionOptimize_notWorse F G hS r) h l h' hg p e
    have q : PlanInv E fleet job _ _ .any h' l := q
    have p' : PlanInv E fleet job _ _ .any h' rs := (f.2 rs p).1
    exact ⟨l, h', rfl, q.forProblem, fun hP r hr => q.kept r hr hP, f.1.2.leftAlone p'.sound, hle⟩

/-! ## C83 -/

section Grasp

variable {D : Nat → Heap → Draws} {S : Nat → Heap → Settings} {threshold fuel : Nat} {seeds : Nat → Nat} {draw draw' : Nat → Nat → Nat}
  {episodes firstEpisodes : Nat}

theorem grasp_stages_safe (F : RunSetting E fleet job W K md) (G : InsertSetting E fleet job W K) (hD : ∀ s h, (D s h).OK)
    (hS : ∀ s h, (S s h).Of E fleet job) {X : Err → Prop} (hX : X .outOfFuel) (seed : Nat) :
    ∀ st ∈ defaultStages E k (D seed) (S seed) threshold fuel, ∀ s r, (V).Good s → (V).Alive s r → (V).Safe X s (st (some r)) := by
  intro st hst s r hg ha
  simp only [defaultStages, List.mem_cons, List.not_mem_nil, or_false] at hst
  rcases hst with rfl | rfl
  · exact localSearchOptimize_safe F (hD seed) hX hg ha
  · refine insertionOptimize_safe F G (hS seed) ?_ hg (by rintro _ ⟨⟩; exact ha)
    rintro e (⟨_, rfl, _⟩ | ⟨rfl, _⟩) <;> exact hX

theorem graspOptimize_safe (F : RunSetting E fleet job W K md) (G : InsertSetting E fleet job W K) (hD : ∀ s h, (D s h).OK)
    (hS : ∀ s h, (S s h).Of E fleet job) {s : Heap} (hg : (V).Good s) (he : 0 < episodes) (hf : 0 < firstEpisodes) :
    (V).Safe (· = .outOfFuel) s (graspOptimize E k D S threshold fuel seeds draw draw' episodes firstEpisodes) := by
  refine logged_safe (fun r s => logResult_safe F.env F.some r s) (grasp_safe (fun r s => logResult_safe F.env F.some r s) ?_
    (grasp_stages_safe (X := (· = .outOfFuel)) F G hD hS rfl) hg he hf)
  intro seed s hg
  refine insertionOptimize_safe F G (hS seed) ?_ hg (fun _ e => nomatch e)
  rintro e (⟨_, rfl, _⟩ | ⟨rfl, _⟩) <;> rfl

/-- **C83.** GRASP with its default algorithms, from nothing, on any heap, for every objective, fleet, job, random draws and
set orders: with at least one episode it returns or raises `outOfFuel`, that is, a loop does not end within the rounds
given; it raises nothing else. The result is a planning for the problem: one sound route per vehicle, trips of the job at
most once; and the routes are as they should be (from depot to depot, one trip per visit, at its place). Each route serves
nothing or meets the constraints of `LooselyFeasible`; if there are no ride limits
and no maximum durations of routes, all constraints. Routes that existed before are left as they were. -/
theorem C83_grasp_whole (hE : EnvOK E) (hf : fleet ≠ []) (hfn : fleet.Nodup) (hjn : job.Nodup) (hD : ∀ s h, (D s h).OK)
    (hS : ∀ s h, (S s h).Of E fleet job) {h : Heap} (nd : NoDangling h.core) (k : Objective) (he : 0 < episodes) (hfe : 0 < firstEpisodes) :
    (∃ l h', graspOptimize E k D S threshold fuel seeds draw draw' episodes firstEpisodes h = (.ok l, h') ∧ PlanningFor E fleet job h' l ∧ ProperRoutes E h' l ∧
      ServesLoosely E h' l ∧ ((∀ t, (E.trip t).timeout = .inf) → (∀ v, (E.vehicle v).timeout = .inf) → ServesFeasibly E h' l) ∧
      ∀ r, WellFormed h.core r → WellFormed h'.core r ∧ (h'.core.route r).vehicle = (h.core.route r).vehicle ∧ itinerary h'.core r = itinerary h.core r) ∨
    ∃ h', graspOptimize E k D S threshold fuel seeds draw draw' episodes firstEpisodes h = (.error .outOfFuel, h') := by
  have F : ∀ md : Mode, (md = .exact → ∀ t, (E.trip t).timeout = .inf) → RunSetting E fleet job (fun _ => True) (fun v ds => True → Proper E v ds) md := fun md hx =>
    ⟨hE, hx, hf, hfn, fun _ _ _ _ => trivial, proper_movable _⟩
  have G : InsertSetting E fleet job (fun _ => True) (fun v ds => True → Proper E v ds) := ⟨hjn, fun _ _ _ => trivial, fun v _ _ => proper_idle v⟩
  have main := fun (md : Mode) (hx : md = .exact → ∀ t, (E.trip t).timeout = .inf) rs0 (hr : ∀ r ∈ rs0, WellFormed h.core r) =>
    graspOptimize_safe (k := k) (c0 := h.core) (rs0 := rs0) (threshold := threshold) (fuel := fuel) (seeds := seeds) (draw := draw) (draw' := draw')
      (F md hx) G hD hS ⟨nd, .self hr⟩ he hfe
  rcases e : graspOptimize E k D S threshold fuel seeds draw draw' episodes firstEpisodes h with ⟨er | l, h'⟩
  · right
    have := (main .sound (fun h => nomatch h) [] (by simp)).error e
    exact ⟨h', by rw [this]⟩
  · left
    have p : PlanInv E fleet job _ _ .sound h' l := ((main .sound (fun h => nomatch h) [] (by simp)).ok e).2
    refine ⟨l, h', rfl, p.forProblem, fun r hr => p.kept r hr trivial, p.loosely (fun h => nomatch h), fun hx hv => ?_, fun r hr => ?_⟩
    · have q : PlanInv E fleet job _ _ .exact h' l := ((main .exact (fun _ => hx) [] (by simp)).ok e).2
      exact q.feasibly hv
    · exact ((main .sound (fun h => nomatch h) [r] (by simpa using hr)).ok e).1.1.2 r (by simp)

/-- **C83, quality.** Under the Dial-a-Ride objective the result of GRASP is at least as good as the first solution of each of
its episodes, each of which still is a planning for the problem. -/
theorem C83_grasp_at_least_first (hE : EnvOK E) (hf : fleet ≠ []) (hfn : fleet.Nodup) (hjn : job.Nodup) (hD : ∀ s h, (D s h).OK)
    (hS : ∀ s h, (S s h).Of E fleet job) {h : Heap} (nd : NoDangling h.core) {l : List Nat} {h' : Heap}
    (e : graspOptimize E .dialARide D S threshold fuel seeds draw draw' episodes firstEpisodes h = (.ok l, h')) :
    ∃ firsts : List (List Nat), firsts.length = episodes ∧
      (∀ f ∈ firsts, PlanningFor E fleet job h' f ∧ ProperRoutes E h' f ∧
        planningValue E .dialARide (f.map (planOf E h'.core)) ≤ planningValue E .dialARide (l.map (planOf E h'.core))) ∧
      ∀ (i : Nat) (f : List Nat), firsts[i]? = some f → ∃ t t', iterative (fun seed _ => insertionOptimize E .dialARide (S seed) fuel none)
        (resultValue E .dialARide) true (draw (seeds i)) firstEpisodes t = (.ok f, t') := by
  have F : RunSetting E fleet job (fun _ => True) (fun v ds => True → Proper E v ds) .any := ⟨hE, (fun h => nomatch h), hf, hfn, fun _ _ _ _ => trivial, proper_movable _⟩
  have G : InsertSetting E fleet job (fun _ => True) (fun v ds => True → Proper E v ds) := ⟨hjn, fun _ _ _ => trivial, fun v _ _ => proper_idle v⟩
  have hlog : ∀ r s s', (plannedValued E fleet job (fun _ => True) (fun v ds => True → Proper E v ds) .any .dialARide h.core []).Good s →
      (plannedValued E fleet job (fun _ => True) (fun v ds => True → Proper E v ds) .any .dialARide h.core []).Alive s r → logResult E .dialARide r s = (.ok (), s') →
      (plannedValued E fleet job (fun _ => True) (fun v ds => True → Proper E v ds) .any .dialARide h.core []).Follows s s' := fun r s s' hg ha e =>
    (logResult_safe (X := fun _ => False) hE hf r s hg ha).ok e
  obtain ⟨s1, e1, hl⟩ := logged_ok e
  obtain ⟨f, ha, firsts, h1, h2, h3⟩ := C65_grasp_at_least_first_solutions
    (plannedValued E fleet job (fun _ => True) (fun v ds => True → Proper E v ds) .any .dialARide h.core []) (logResult E .dialARide)
    (fun s => insertionOptimize E .dialARide (S s) fuel none) (fun s => defaultStages E .dialARide (D s) (S s) threshold fuel) seeds draw draw' episodes
    firstEpisodes hlog
    (fun seed s x s' hg e => (insertionOptimize_safe (X := fun _ => True) (initial := none) F G (hS seed) (fun _ _ => trivial) hg (fun _ e => nomatch e)).ok e)
    (by
      intro seed st hst r
      simp only [defaultStages, List.mem_cons, List.not_mem_nil, or_false] at hst
      rcases hst with rfl | rfl
      · exact localSearchOptimize_notWorse F (hD seed) r
      · exact insertionOptimize_notWorse F G (hS seed) r) l h s1 ⟨nd, by simp [RoutesKept]⟩ e1
  have g := hlog l s1 h' f.1 ha hl
  refine ⟨firsts, h1, fun x hx => ?_, fun i x hi => ?_⟩
  · obtain ⟨a, b⟩ := h2 x hx
    have q : PlanInv E fleet job _ _ .any h' x := (g.2 x a).1
    refine ⟨q.forProblem, fun r hr => q.kept r hr trivial, ?_⟩
    have e1 := (g.2 x a).2
    have e2 := (g.2 l ha).2
    simp only [plannedValued] at e1 e2 b
    rw [e1, e2]
    exact b
  · obtain ⟨t, t', _, h4⟩ := h3 i x hi
    exact ⟨t, t', h4⟩

/-- **C83, termination.** Under the Dial-a-Ride or the Hash Code objective, with strategies whose sampling ends, if they sample, there is a bound on the rounds
of the inner loops, depending only on the problem and the threshold, for which GRASP returns: whatever the draws, seeds,
numbers of episodes and the heap it starts on. -/
theorem C83_grasp_returns (hE : EnvOK E) (hf : fleet ≠ []) (hfn : fleet.Nodup) (hjn : job.Nodup) (threshold : Nat)
    {k : Objective} (hk : k ≠ .taxiSharing) :
    ∃ n, ∀ (D : Nat → Heap → Draws) (S : Nat → Heap → Settings) (fuel : Nat) (seeds : Nat → Nat) (draw draw' : Nat → Nat → Nat)
      (episodes firstEpisodes : Nat) (h : Heap), (∀ s h, (D s h).OK) → (∀ s h, (S s h).Of E fleet job) →
      (∀ s h, (S s h).strategy.Ends) → NoDangling h.core → 0 < episodes → 0 < firstEpisodes → n ≤ fuel →
      ∃ l h', graspOptimize E k D S threshold fuel seeds draw draw' episodes firstEpisodes h = (.ok l, h') := by
  let A : List Duty := fleet.flatMap (idleDuties E) ++ job.flatMap fun t => [pickDuty E t, dropDuty E t]
  obtain ⟨values, hv⟩ := finite_values E fleet job A 2 hk
  have F : RunSetting E fleet job (fun _ => True) (fun _ => Within A 2) .any :=
    ⟨hE, (fun h => nomatch h), hf, hfn, fun _ _ _ _ => trivial, within_movable fun t ht =>
      ⟨List.mem_append_right _ (List.mem_flatMap.2 ⟨t, ht, by simp⟩), List.mem_append_right _ (List.mem_flatMap.2 ⟨t, ht, by simp⟩)⟩⟩
  have G : InsertSetting E fleet job (fun _ => True) (fun _ => Within A 2) := ⟨hjn, fun _ _ _ => trivial, fun v hv =>
    ⟨fun d hd => List.mem_append_left _ (List.mem_flatMap.2 ⟨v, hv, hd⟩), List.countP_le_length⟩⟩
  refine ⟨values.card * (threshold + 1) + threshold + 1 + job.length + 1, ?_⟩
  intro D S fuel seeds draw draw' episodes firstEpisodes h hD hS hstr nd he hfe hn
  have hX : ∀ seed e, InsertErr (S seed) fuel job e → False := by
    rintro seed e (⟨s, _, h1⟩ | ⟨_, h1⟩)
    · exact h1 (hstr seed s)
    · omega
  have hlog := fun r s => logResult_safe (E := E) (fleet := fleet) (job := job) (W := fun _ => True) (K := fun _ => Within A 2) (md := .any)
    (k := k) (c0 := h.core) (rs0 := []) (X := fun _ => False) hE hf r s
  have safe : (plannedValued E fleet job (fun _ => True) (fun _ => Within A 2) .any k h.core []).Safe (fun _ => False) h
      (graspOptimize E k D S threshold fuel seeds draw draw' episodes firstEpisodes) := by
    refine logged_safe hlog (grasp_safe hlog ?_ ?_ ⟨nd, by simp [RoutesKept]⟩ he hfe)
    · intro seed s hg
      exact insertionOptimize_safe F G (hS seed) (hX seed) hg (fun _ e => nomatch e)
    · intro seed st hst s r hg ha
      simp only [defaultStages, List.mem_cons, List.not_mem_nil, or_false] at hst
      rcases hst with rfl | rfl
      · rw [localSearchOptimize_some (ha.ne_nil F.some)]
        refine logged_safe hlog ?_
        obtain ⟨x, s', e⟩ := localSearch_bound_all (k := threshold) (n := fuel) (pass_improves (k := k) (c0 := h.core) (rs0 := []) F (hD seed)) values
          (fun s r _ ha => hv _ _ s r ha) hg ha (by omega)
        exact .of_ok e ((localSearch_safe (k := threshold) (pass_improves F (hD seed)) fuel r 0 s hg ha).ok e)
      · exact insertionOptimize_safe F G (hS seed) (hX seed) hg (by rintro _ ⟨⟩; exact ha)
  rcases e : graspOptimize E k D S threshold fuel seeds draw draw' episodes firstEpisodes h with ⟨er | l, h'⟩
  · exact (safe.error e).elim
  · exact ⟨l, h', rfl⟩

end Grasp

/-! ## Cases -/

/-- Every pass tries all pairs of positions. -/
def plainDraws : Draws := ⟨id, allPairs⟩

theorem plainDraws_ok : plainDraws.OK := ⟨fun l => .refl l, allPairs_good⟩

theorem swap_single : ∀ r ∈ [1, 2], SingleVisits (duties swap2.core r) := fun r hr => swap_reach.single swapEnv_ok r (by
  simp at hr
  rcases hr with rfl | rfl <;> decide +kernel)

/-- Local search moves the trip to the vehicle nearby, then finds nothing better: the hypotheses of C81 hold, it returns new
routes, and they are strictly better. -/
example : (localSearchOptimize swapEnv .dialARide (fun _ => plainDraws) 1 5 (some [1, 2]) swap2).1 = .ok [6, 7] ∧
    planningValue swapEnv .dialARide ([1, 2].map (planOf swapEnv swap2.core)) <
      planningValue swapEnv .dialARide ([6, 7].map (planOf swapEnv swap3.core)) ∧
    ((∃ l h', localSearchOptimize swapEnv .dialARide (fun _ => plainDraws) 1 5 (some [1, 2]) swap2 = (.ok l, h') ∧ OnePerVehicle swapEnv h' l ∧
      SameWork swap2.core [1, 2] h'.core l ∧ (∀ q ∈ l, SingleVisits (duties h'.core q)) ∧
      (ProperRoutes swapEnv swap2 [1, 2] → ProperRoutes swapEnv h' l) ∧ LeftAlone swapEnv swap2 h' [1, 2] ∧
      planningValue swapEnv .dialARide ([1, 2].map (planOf swapEnv swap2.core)) ≤ planningValue swapEnv .dialARide (l.map (planOf swapEnv h'.core))) ∨
    ∃ h', localSearchOptimize swapEnv .dialARide (fun _ => plainDraws) 1 5 (some [1, 2]) swap2 = (.error .outOfFuel, h')) :=
  ⟨by decide +kernel, by decide +kernel,
    C81_local_search_whole swapEnv_ok (fun _ => plainDraws_ok) swap2_noDangling (by simp) swap_one swap_single .dialARide 1 5⟩

/-- With too few rounds it does not return. -/
example : (localSearchOptimize swapEnv .dialARide (fun _ => plainDraws) 1 1 (some [1, 2]) swap2).1 = .error .outOfFuel := by decide +kernel

def swapSettings : Settings := plainSettings swapEnv [0, 1] [0] .intensive 1

theorem swapSettings_of : swapSettings.Of swapEnv [0, 1] [0] := ⟨rfl, rfl, rfl, plainSettings_fair _ _ _ _, Nat.one_pos⟩

theorem swap_planning : PlanningFor swapEnv [0, 1] [0] swap2 [1, 2] :=
  ⟨swap_one.sound, by decide +kernel, swap_one.trips, by decide +kernel, swap_single⟩

/-- The hypotheses of C82 hold, and the stages return. -/
example : (sequential (defaultStages swapEnv .dialARide (fun _ => plainDraws) (fun _ => swapSettings) 1 5) (some [1, 2]) swap2).1.toOption.map
      List.length = some 2 ∧
    ((∃ l h', sequential (defaultStages swapEnv .dialARide (fun _ => plainDraws) (fun _ => swapSettings) 1 5) (some [1, 2]) swap2 = (.ok l, h') ∧
      PlanningFor swapEnv [0, 1] [0] h' l ∧ (ProperRoutes swapEnv swap2 [1, 2] → ProperRoutes swapEnv h' l) ∧ LeftAlone swapEnv swap2 h' [1, 2] ∧
      planningValue swapEnv .dialARide ([1, 2].map (planOf swapEnv swap2.core)) ≤ planningValue swapEnv .dialARide (l.map (planOf swapEnv h'.core))) ∨
    ∃ h', sequential (defaultStages swapEnv .dialARide (fun _ => plainDraws) (fun _ => swapSettings) 1 5) (some [1, 2]) swap2 = (.error .outOfFuel, h')) :=
  ⟨by decide +kernel, C82_default_stages_not_worse swapEnv_ok (by simp) (by simp) (by simp) (fun _ => plainDraws_ok) (fun _ => swapSettings_of)
    swap2_noDangling swap_planning 1 5⟩

/-- The number of routes of an outcome, and the trips they serve. -/
def servedBy (out : Except Err (List Nat) × Heap) : Option (Nat × List Nat) := out.1.toOption.map fun l => (l.length, l.flatMap (tripsOf out.2.core))

/-- GRASP on the empty heap, one episode with one first solution: the hypotheses of C83 hold and it returns two routes, of
which one serves the trip. -/
example : servedBy (graspOptimize swapEnv .dialARide (fun _ _ => plainDraws) (fun _ _ => swapSettings) 1 9 id (fun a b => a + b) (fun a b => a * b) 1 1
      .empty) = some (2, [0]) ∧
    ∃ n, ∀ fuel, n ≤ fuel → ∃ l h', graspOptimize swapEnv .dialARide (fun _ _ => plainDraws) (fun _ _ => swapSettings) 1 fuel id (fun a b => a + b)
      (fun a b => a * b) 1 1 .empty = (.ok l, h') ∧ PlanningFor swapEnv [0, 1] [0] h' l ∧ ServesFeasibly swapEnv h' l := by
  refine ⟨by decide +kernel, ?_⟩
  obtain ⟨n, hn⟩ := C83_grasp_returns (fleet := [0, 1]) (job := [0]) swapEnv_ok (by simp) (by simp) (by simp) 1 (k := .dialARide) (by decide)
  refine ⟨n, fun fuel hfuel => ?_⟩
  obtain ⟨l, h', e⟩ := hn (fun _ _ => plainDraws) (fun _ _ => swapSettings) fuel id (fun a b => a + b) (fun a b => a * b) 1 1 .empty
    (fun _ _ => plainDraws_ok) (fun _ _ => swapSettings_of) (fun _ _ _ _ _ h => nomatch h) empty_noDangling (by omega) (by omega) hfuel
  rcases C83_grasp_whole (fleet := [0, 1]) (job := [0]) (threshold := 1) (fuel := fuel) (seeds := id) (draw := fun a b => a + b) (draw' := fun a b => a * b)
    (episodes := 1) (firstEpisodes := 1) swapEnv_ok (by simp) (by simp) (by simp) (D := fun _ _ => plainDraws) (S := fun _ _ => swapSettings)
    (fun _ _ => plainDraws_ok) (fun _ _ => swapSettings_of) empty_noDangling .dialARide (by omega) (by omega) with
    ⟨l2, h2, e2, p, _, _, q, _⟩ | ⟨h2, e2⟩
  · exact ⟨l2, h2, e2, p, q (fun _ => rfl) (fun _ => rfl)⟩
  · rw [e] at e2
    cases e2

end Jinete
