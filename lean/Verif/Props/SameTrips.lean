import Verif.Props.GraspRides

/-!
# C141: With enough vehicles of a kind, the trips served are those that one of them can serve alone
-/

set_option autoImplicit false

namespace Jinete

variable {E : Env} {fleet fleet' job : List Nat}

/-- The places of a problem: where its vehicles start and end and where its trips do. -/
def places (E : Env) (fleet job : List Nat) : List Pos :=
  (fleet.flatMap fun v => [(E.vehicle v).origin.position, (E.vehicle v).destination.position]) ++
    job.flatMap fun t => [(E.trip t).origin.position, (E.trip t).destination.position]

/-- The trips of the job that vehicle `v` can serve if it serves nothing else. -/
def CanServe (E : Env) (job : List Nat) (v t : Nat) : Prop := t ∈ job ∧ FeasibleItinerary E (E.vehicle v) (alone E v t)

/-- A route that visits the right places visits places of the problem. -/
theorem places_visited {c : Core} {r : Nat} (hw : WellFormed c r) (hv : (c.route r).vehicle ∈ fleet) (hj : ∀ t ∈ tripsOf c r, t ∈ job)
    (hp : Proper E (c.route r).vehicle (duties c r)) :
    ∀ q ∈ (E.vehicle (c.route r).vehicle).origin.position :: (itinerary c r).map Visit.pos, q ∈ places E fleet job := by
  have dep : ∀ q, q = (E.vehicle (c.route r).vehicle).origin.position ∨ q = (E.vehicle (c.route r).vehicle).destination.position →
      q ∈ places E fleet job := fun q h => List.mem_append.2 (.inl (List.mem_flatMap.2 ⟨_, hv, by simpa using h⟩))
  have tr : ∀ t ∈ tripsOf c r, ∀ q, q = (E.trip t).origin.position ∨ q = (E.trip t).destination.position → q ∈ places E fleet job :=
    fun t ht q h => List.mem_append.2 (.inr (List.mem_flatMap.2 ⟨t, hj t ht, by simpa using h⟩))
  obtain ⟨mid, e, hmid⟩ := hp
  intro q hq
  rw [List.mem_cons, List.mem_map] at hq
  rcases hq with rfl | ⟨v, hvm, rfl⟩
  · exact dep _ (.inl rfl)
  · have hdm : v.duty ∈ duties c r := List.mem_map_of_mem hvm
    rw [e] at hdm
    simp only [List.mem_cons, List.mem_append, List.not_mem_nil, or_false] at hdm
    rcases hdm with h | h | h
    · exact dep _ (.inl (Visit.duty_eq h).1)
    · obtain ⟨t, h0 | h0⟩ := hmid _ h
      · obtain ⟨h1, h2, h3⟩ := Visit.duty_eq h0
        exact tr t (List.mem_flatMap.2 ⟨v, hvm, by rw [h2]; simp [pickDuty]⟩) _ (.inl h1)
      · obtain ⟨h1, h2, h3⟩ := Visit.duty_eq h0
        obtain ⟨a, d, ed⟩ := List.append_of_mem hvm
        have hpick := hw.itinOK.dropAfter a v d ed t (by rw [h3]; simp [dropDuty])
        exact tr t (by unfold tripsOf; rw [ed, List.flatMap_append]; exact List.mem_append.2 (.inl hpick)) _ (.inr h1)
    · exact dep _ (.inr (Visit.duty_eq h).1)

/-- **C141, no others.** Where no detour saves time and nothing limits rides and tours, a good plan has each trip served by a vehicle that can serve it alone,
whatever algorithm made the plan. -/
theorem C141_no_others (hE : EnvOK E) (hx : ∀ t, (E.trip t).timeout = .inf) (hlim : ∀ v, (E.vehicle v).timeout = .inf)
    (tri : NoShortcut E (places E fleet job)) {h : Heap} {rs : List Nat} (hg : GoodPlan E fleet job h rs) {r t : Nat} (hr : r ∈ rs)
    (ht : t ∈ tripsOf h.core r) : (h.core.route r).vehicle ∈ fleet ∧ CanServe E job (h.core.route r).vehicle t := by
  have hj : ∀ t ∈ tripsOf h.core r, t ∈ job := fun t ht => hg.planning.job t (List.mem_flatMap.2 ⟨r, hr, ht⟩)
  have hw := (hg.planning.sound r hr).1
  have hv := hg.planning.vehicles.mem_iff.1 (List.mem_map.2 ⟨r, hr, rfl⟩)
  refine ⟨hv, hj t ht, ?_⟩
  rcases hg.feasibly hx hlim r hr with h0 | h0
  · rw [h0] at ht
    cases ht
  · have hm := places_visited hw hv hj (hg.proper r hr)
    obtain ⟨ts, h1⟩ := C134_alone hE h.core r t hw (hg.proper r hr)
      (fun a ha b hb c hc => tri a (hm a ha) b (hm b hb) c (hm c hc)) _ h0.timing ht
    exact alone_itinerary hE hx (hlim _) h1

/-- Insertion with all trips considered, and at least as many vehicles as trips: trips that every vehicle can serve are served. -/
theorem insertion_serves_all_of (hE : EnvOK E) (hfn : fleet.Nodup) (hjn : job.Nodup) {S : Settings} (hS : S.Of E fleet job)
    (hst : S.strategy.Tries) (hsz : job.length ≤ neighborhoodSize S) (ho : S.onlyFeasible = true ∨ S.randomized = 1)
    (hx : ∀ t, (E.trip t).timeout = .inf) (hmany : job.length ≤ fleet.length) {h : Heap} {fuel : Nat} {rs : List Nat} {s : IterState}
    (e : insertionAlgorithm S none fuel (.initial h) = (.ok rs, s)) {t : Nat} (ht : t ∈ job)
    (hal : ∀ v ∈ fleet, FeasibleItinerary E (E.vehicle v) (alone E v t)) : t ∈ rs.flatMap (tripsOf s.heap.core) := by
  obtain ⟨rfl, rfl, rfl, hF, hR⟩ := hS
  obtain ⟨hp, ⟨start, R, k⟩, st⟩ :=
    (insertionAlgorithm_meets (md := .exact) (h0 := h) (initial := none) hE hF ⟨hfn, hjn⟩ hR (fun _ => hx) (fun _ h => nomatch h) fuel).ok e
  by_contra hn
  have htp : t ∈ s.pending := by
    rcases List.mem_append.1 (k.trips.mem_iff.2 ht) with h | h
    · exact h
    · refine absurd ?_ hn
      obtain ⟨x, hx, hxt⟩ := List.mem_flatMap.1 h
      exact List.mem_flatMap.2 ⟨x.2, hp.mem_iff.2 (List.mem_map.2 ⟨x, hx, rfl⟩), hxt⟩
  obtain ⟨x, hxm, -, hno⟩ := k.idle_rejects hE st hst hsz ho (k.some_idle hmany (List.ne_nil_of_mem htp))
  exact hno t htp (hal _ (k.keys.mem_iff.1 (List.mem_map.2 ⟨x, hxm, rfl⟩)))

/-- A result of a solver that considers all trips, each at one pair of positions at least: of insertion from nothing, or of GRASP. -/
inductive ThoroughRun (E : Env) (fleet job : List Nat) (h : Heap) (l : List Nat) (h' : Heap) : Prop where
  | insertion (k : Objective) (S : Heap → Settings) (fuel : Nat) (hS : ∀ h, (S h).Of E fleet job) (hst : ∀ h, (S h).strategy.Tries)
      (hsz : ∀ h, job.length ≤ neighborhoodSize (S h)) (ho : ∀ h, (S h).onlyFeasible = true ∨ (S h).randomized = 1)
      (e : insertionOptimize E k S fuel none h = (.ok l, h'))
  | grasp (k : Objective) (D : Nat → Heap → Draws) (S : Nat → Heap → Settings) (threshold fuel : Nat) (seeds : Nat → Nat) (draw draw' : Nat → Nat → Nat)
      (episodes firstEpisodes : Nat) (hD : ∀ s h, (D s h).OK) (hS : ∀ s h, (S s h).Of E fleet job) (hst : ∀ s h, (S s h).strategy.Tries)
      (hsz : ∀ s h, job.length ≤ neighborhoodSize (S s h)) (ho : ∀ s h, (S s h).onlyFeasible = true ∨ (S s h).randomized = 1)
      (he : 0 < episodes) (hfe : 0 < firstEpisodes)
      (e : graspOptimize E k D S threshold fuel seeds draw draw' episodes firstEpisodes h = (.ok l, h'))

/-- Such a result is a good plan, and serves the trips that every vehicle can serve alone when there are enough vehicles. -/
theorem ThoroughRun.plan (hE : EnvOK E) (hf : fleet ≠ []) (hfn : fleet.Nodup) (hjn : job.Nodup) (hx : ∀ t, (E.trip t).timeout = .inf)
    {h h' : Heap} {l : List Nat} (nd : NoDangling h.core) (run : ThoroughRun E fleet job h l h') :
    GoodPlan E fleet job h' l ∧ (job.length ≤ fleet.length → ∀ t ∈ job, (∀ v ∈ fleet, FeasibleItinerary E (E.vehicle v) (alone E v t)) →
      t ∈ l.flatMap (tripsOf h'.core)) := by
  cases run with
  | insertion k S fuel hS hst hsz ho e =>
    refine ⟨?_, fun hmany t ht hal => ?_⟩
    · rcases insertion_planned (fuel := fuel) hE hf hfn hjn hS nd k with ⟨l', h1, e1, g⟩ | ⟨h1, e1⟩
      · rw [e] at e1
        cases e1
        exact g
      · rw [e] at e1
        cases e1
    · obtain ⟨s, e1, hc⟩ := insertionOptimize_ok hE hf hfn hjn hS nd e
      rw [hc]
      exact insertion_serves_all_of hE hfn hjn (hS h) (hst h) (hsz h) (ho h) hx hmany e1 ht hal
  | grasp k D S threshold fuel seeds draw draw' episodes firstEpisodes hD hS hst hsz ho he hfe e =>
    refine ⟨?_, fun hmany t ht hal => ?_⟩
    · rcases C83_grasp_whole (threshold := threshold) (fuel := fuel) (seeds := seeds) (draw := draw) (draw' := draw') hE hf hfn hjn hD hS nd k he hfe with
        ⟨l', h1, e1, p1, p2, p3, p4, _⟩ | ⟨h1, e1⟩
      · rw [e] at e1
        cases e1
        exact ⟨p1, p2, p3, p4⟩
      · rw [e] at e1
        cases e1
    · exact C139_nothing_lost (R := fun t => t ∈ job ∧ ∀ v ∈ fleet, FeasibleItinerary E (E.vehicle v) (alone E v t)) hE hf hfn hjn hD hS nd he hfe
        (fun seed h0 l s e0 t ht => insertion_serves_all_of hE hfn hjn (hS seed h0) (hst seed h0) (hsz seed h0) (ho seed h0) hx hmany e0 ht.1 ht.2) e ⟨ht, hal⟩

/-- **C141, vehicles that differ.** At least as many vehicles as trips, of which each can be served alone by all vehicles or by none; no detour that saves time, nothing that
limits rides and tours: the trips served are exactly those that a vehicle of the fleet can serve alone. -/
theorem C141_uniform_partial (hE : EnvOK E) (hf : fleet ≠ []) (hfn : fleet.Nodup) (hjn : job.Nodup) (hx : ∀ t, (E.trip t).timeout = .inf)
    (hlim : ∀ v, (E.vehicle v).timeout = .inf) (hall : ∀ t, ∀ v ∈ fleet, CanServe E job v t → ∀ w ∈ fleet, CanServe E job w t) (hmany : job.length ≤ fleet.length)
    (tri : NoShortcut E (places E fleet job)) {h h' : Heap} {l : List Nat} (nd : NoDangling h.core) (run : ThoroughRun E fleet job h l h') (t : Nat) :
    t ∈ l.flatMap (tripsOf h'.core) ↔ ∃ v ∈ fleet, CanServe E job v t := by
  obtain ⟨g, all⟩ := run.plan hE hf hfn hjn hx nd
  constructor
  · intro ht
    obtain ⟨r, hr, htr⟩ := List.mem_flatMap.1 ht
    exact ⟨_, C141_no_others hE hx hlim tri g hr htr⟩
  · rintro ⟨v, hv, hc⟩
    exact all hmany t hc.1 fun w hw => (hall t v hv hc w hw).2

/-- **C141.** Vehicles alike and at least as many as the trips, no detour that saves time, nothing that limits rides and tours: the trips served are exactly those
that a vehicle of the fleet can serve alone. -/
theorem C141_served_iff_partial (hE : EnvOK E) (hf : fleet ≠ []) (hfn : fleet.Nodup) (hjn : job.Nodup) (hx : ∀ t, (E.trip t).timeout = .inf)
    (hlim : ∀ v, (E.vehicle v).timeout = .inf) (halike : ∀ v ∈ fleet, ∀ w ∈ fleet, E.vehicle v = E.vehicle w) (hmany : job.length ≤ fleet.length)
    (tri : NoShortcut E (places E fleet job)) {h h' : Heap} {l : List Nat} (nd : NoDangling h.core) (run : ThoroughRun E fleet job h l h') (t : Nat) :
    t ∈ l.flatMap (tripsOf h'.core) ↔ ∃ v ∈ fleet, CanServe E job v t := by
  refine C141_uniform_partial hE hf hfn hjn hx hlim (fun t v hv hc w hw => ⟨hc.1, ?_⟩) hmany tri nd run t
  have hsame : alone E v t = alone E w t := by unfold alone; rw [halike v hv w hw]
  rw [← hsame, ← halike v hv w hw]
  exact hc.2

/-- **C141, the same trips.** As in `C141_served_iff_partial`, two fleets of vehicles of the same kind, each with at least as many vehicles as there are trips: whatever the
algorithms, criteria, objectives, draws, orders and numbers of vehicles, the same trips are served. -/
theorem C141_same_trips_partial (hE : EnvOK E) (hf : fleet ≠ []) (hfn : fleet.Nodup) (hf' : fleet' ≠ []) (hfn' : fleet'.Nodup) (hjn : job.Nodup)
    (hx : ∀ t, (E.trip t).timeout = .inf) (hlim : ∀ v, (E.vehicle v).timeout = .inf)
    (halike : ∀ v ∈ fleet ++ fleet', ∀ w ∈ fleet ++ fleet', E.vehicle v = E.vehicle w) (hmany : job.length ≤ fleet.length) (hmany' : job.length ≤ fleet'.length)
    (tri : NoShortcut E (places E fleet job)) {h h1 h2 h3 : Heap} {l l' : List Nat} (nd : NoDangling h.core) (run : ThoroughRun E fleet job h l h1)
    (nd' : NoDangling h2.core) (run' : ThoroughRun E fleet' job h2 l' h3) : (l.flatMap (tripsOf h1.core)).Perm (l'.flatMap (tripsOf h3.core)) := by
  have left : ∀ {v}, v ∈ fleet → v ∈ fleet ++ fleet' := fun h => List.mem_append.2 (.inl h)
  have right : ∀ {v}, v ∈ fleet' → v ∈ fleet ++ fleet' := fun h => List.mem_append.2 (.inr h)
  obtain ⟨v0, hv0⟩ := List.exists_mem_of_ne_nil _ hf
  obtain ⟨w0, hw0⟩ := List.exists_mem_of_ne_nil _ hf'
  have hpl : ∀ q ∈ places E fleet' job, q ∈ places E fleet job := by
    intro q hq
    rcases List.mem_append.1 hq with h | h
    · obtain ⟨w, hw, hq⟩ := List.mem_flatMap.1 h
      rw [halike w (right hw) v0 (left hv0)] at hq
      exact List.mem_append.2 (.inl (List.mem_flatMap.2 ⟨v0, hv0, hq⟩))
    · exact List.mem_append.2 (.inr h)
  have cross : ∀ v w, E.vehicle v = E.vehicle w → ∀ t, CanServe E job v t → CanServe E job w t := by
    intro v w hvw t ⟨h1, h2⟩
    have hsame : alone E v t = alone E w t := by unfold alone; rw [hvw]
    exact ⟨h1, by rwa [← hsame, ← hvw]⟩
  refine (List.perm_ext_iff_of_nodup (run.plan hE hf hfn hjn hx nd).1.planning.trips (run'.plan hE hf' hfn' hjn hx nd').1.planning.trips).2 fun t => ?_
  rw [C141_served_iff_partial hE hf hfn hjn hx hlim (fun v hv w hw => halike v (left hv) w (left hw)) hmany tri nd run,
    C141_served_iff_partial hE hf' hfn' hjn hx hlim (fun v hv w hw => halike v (right hv) w (right hw)) hmany'
      (fun a ha b hb c hc => tri a (hpl a ha) b (hpl b hb) c (hpl c hc)) nd' run']
  constructor
  · rintro ⟨v, hv, hc⟩
    exact ⟨w0, hw0, cross _ _ (halike v (left hv) w0 (right hw0)) t hc⟩
  · rintro ⟨v, hv, hc⟩
    exact ⟨v0, hv0, cross _ _ (halike v (right hv) v0 (left hv0)) t hc⟩

/-! ## Unlike vehicles -/

/-- The full claim: a further vehicle never leaves fewer trips served. -/
def MoreVehiclesServeMore (E : Env) (fleet job : List Nat) (v : Nat) : Prop :=
  ∀ (k : Objective) (fuel : Nat) (l l' : List Nat) (h h' : Heap),
    insertionOptimize E k (fun _ => plainSettings E fleet job .intensive 1) fuel none .empty = (.ok l, h) →
    insertionOptimize E k (fun _ => plainSettings E (v :: fleet) job .intensive 1) fuel none .empty = (.ok l', h') →
    (l.flatMap (tripsOf h.core)).length ≤ (l'.flatMap (tripsOf h'.core)).length

/-- **C141, a vehicle too many.** One vehicle serves the one trip. Adding a vehicle that is too small for it, the trip is left out: only the first of the
vehicles without trips is tried. -/
theorem C141_vehicle_too_many : ¬ MoreVehiclesServeMore smallEnv [1] [0] 0 := by
  intro hp
  have h1 : (servedBy (insertionOptimize smallEnv .dialARide (fun _ => plainSettings smallEnv [1] [0] .intensive 1) 2 none .empty)) = some (1, [0]) := by
    decide +kernel
  have h2 : (servedBy (insertionOptimize smallEnv .dialARide (fun _ => plainSettings smallEnv [0, 1] [0] .intensive 1) 2 none .empty)) = some (2, []) := by
    decide +kernel
  rcases e1 : insertionOptimize smallEnv .dialARide (fun _ => plainSettings smallEnv [1] [0] .intensive 1) 2 none .empty with ⟨er | l, h⟩
  · rw [e1] at h1
    cases h1
  · rcases e2 : insertionOptimize smallEnv .dialARide (fun _ => plainSettings smallEnv [0, 1] [0] .intensive 1) 2 none .empty with ⟨er | l', h'⟩
    · rw [e2] at h2
      cases h2
    · have := hp .dialARide 2 l l' h h' e1 e2
      rw [e1] at h1
      rw [e2] at h2
      simp only [servedBy, Except.toOption, Option.map_some, Option.some.injEq, Prod.mk.injEq] at h1 h2
      rw [h1.2, h2.2] at this
      exact absurd this (by decide)

/-! ## Cases -/

/-- The places of `awayEnv` are on a line, where no detour saves time. -/
theorem away_noShortcut : NoShortcut awayEnv (places awayEnv [0, 1, 2] [0, 1, 2]) := by
  intro a ha b hb c hc
  have : ∀ q ∈ places awayEnv [0, 1, 2] [0, 1, 2], q.length = 1 := by decide +kernel
  exact manhattan_isMetric.triangle a b c (by rw [this a ha, this b hb]) (by rw [this b hb, this c hc])

/-- Three vehicles of a kind and three trips, of which the third is out of reach: insertion and GRASP, with any seeds and draws, serve the same two. -/
example (D : Nat → Heap → Draws) (hD : ∀ s h, (D s h).OK) (seeds : Nat → Nat) (draw draw' : Nat → Nat → Nat) (threshold fuel : Nat) {l l' : List Nat} {h h' : Heap}
    (e : insertionOptimize awayEnv .dialARide (fun _ => awaySettings) fuel none .empty = (.ok l, h))
    (e' : graspOptimize awayEnv .taxiSharing D (fun _ _ => awaySettings) threshold fuel seeds draw draw' 3 2 .empty = (.ok l', h')) :
    (l.flatMap (tripsOf h.core)).Perm (l'.flatMap (tripsOf h'.core)) :=
  C141_same_trips_partial (fleet := [0, 1, 2]) (fleet' := [0, 1, 2]) (job := [0, 1, 2]) awayEnv_ok (by simp) (by decide) (by simp) (by decide) (by decide)
    (by intro t; simp only [awayEnv, demoEnv]; split <;> [rfl; (split <;> rfl)]) (fun _ => rfl) (fun _ _ _ _ => rfl) (by decide) (by decide) away_noShortcut
    empty_noDangling
    (.insertion .dialARide (fun _ => awaySettings) fuel (fun _ => ⟨rfl, rfl, rfl, plainSettings_fair _ _ _ _, Nat.one_pos⟩) (fun _ => by intro _ _ _ h; cases h)
      (fun _ => by decide) (fun _ => .inl rfl) e) empty_noDangling
    (.grasp .taxiSharing D (fun _ _ => awaySettings) threshold fuel seeds draw draw' 3 2 hD (fun _ _ => ⟨rfl, rfl, rfl, plainSettings_fair _ _ _ _, Nat.one_pos⟩)
      (fun _ _ => by intro _ _ _ h; cases h) (fun _ _ => by decide) (fun _ _ => .inl rfl) (by omega) (by omega) e')

/-- Insertion returns there, and serves two trips; so no vehicle can serve the third alone. -/
example : (servedBy (insertionOptimize awayEnv .dialARide (fun _ => awaySettings) 4 none .empty)).map (fun x => decide (x.2.Perm [0, 1])) = some true ∧
    ¬ ∃ v ∈ [0, 1, 2], CanServe awayEnv [0, 1, 2] v 2 := by
  have hrun : (servedBy (insertionOptimize awayEnv .dialARide (fun _ => awaySettings) 4 none .empty)).map (fun x => decide (x.2.Perm [0, 1])) = some true := by
    decide +kernel
  refine ⟨hrun, ?_⟩
  rcases e : insertionOptimize awayEnv .dialARide (fun _ => awaySettings) 4 none .empty with ⟨er | l, h⟩
  · rw [e] at hrun
    cases hrun
  · rw [← C141_served_iff_partial (fleet := [0, 1, 2]) (job := [0, 1, 2]) awayEnv_ok (by simp) (by decide) (by decide)
      (by intro t; simp only [awayEnv, demoEnv]; split <;> [rfl; (split <;> rfl)]) (fun _ => rfl) (fun _ _ _ _ => rfl) (by decide) away_noShortcut
      empty_noDangling
      (.insertion .dialARide (fun _ => awaySettings) 4 (fun _ => ⟨rfl, rfl, rfl, plainSettings_fair _ _ _ _, Nat.one_pos⟩) (fun _ => by intro _ _ _ h; cases h)
        (fun _ => by decide) (fun _ => .inl rfl) e) 2]
    rw [e] at hrun
    simp only [servedBy, Except.toOption, Option.map_some, Option.some.injEq, decide_eq_true_eq] at hrun
    rw [hrun.mem_iff]
    decide

/-- The two vehicles of `farEnv` differ, but both can serve both trips: whichever solver is used, both are served. -/
example {l : List Nat} {h : Heap} (run : ThoroughRun farEnv [0, 1] [0, 1] .empty l h) (t : Nat) :
    t ∈ l.flatMap (tripsOf h.core) ↔ ∃ v ∈ [0, 1], CanServe farEnv [0, 1] v t :=
  C141_uniform_partial (fleet := [0, 1]) (job := [0, 1]) farEnv_ok (by simp) (by decide) (by decide) (by intro t; simp only [farEnv]; split_ifs <;> rfl)
    (by intro v; simp only [farEnv]; split_ifs <;> rfl) (fun t _ _ hc w hw => ⟨hc.1, far_alone w hw t hc.1⟩) (by simp)
    (by
      intro a ha b hb c hc
      have : ∀ q ∈ places farEnv [0, 1] [0, 1], q.length = 1 := by decide +kernel
      exact manhattan_isMetric.triangle a b c (by rw [this a ha, this b hb]) (by rw [this b hb, this c hc]))
    empty_noDangling run t

/-- With samples of no pairs at all nobody is served. -/
example : (servedBy (let x := insertionAlgorithm (plainSettings awayEnv [0, 1, 2] [0, 1, 2] (.sampling 0 0 fun _ _ lo _ => lo) 1) none 4 (.initial .empty)
    (x.1, x.2.heap))).map (fun x => x.2) = some [] := by decide +kernel

/-- Insertions at the end of routes only serve the two trips that can be served. -/
example : (servedBy (let x := insertionAlgorithm (plainSettings awayEnv [0, 1, 2] [0, 1, 2] .tail 1) none 4 (.initial .empty)
    (x.1, x.2.heap))).map (fun x => decide (x.2.Perm [0, 1])) = some true := by decide +kernel

end Jinete
