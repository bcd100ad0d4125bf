import Verif.Spec.Deliverable
import Verif.Props.Maximum
import Verif.Props.Solve
import Verif.Props.SmallJobs

/-!
# C138: the rides served with a vehicle for each
-/

set_option autoImplicit false

namespace Jinete

variable {E : Env} {rows : Rows} {f n : Nat} {b T : ℚ}

/-! ## Rides and vehicles as loaded -/

theorem loaded_closing (hd : HashCodeData rows f n b T) (hl : LoadedHashCode E rows) {k : Nat} (hk : k < n) :
    (E.trip k).origin.latest = .fin (contestRide rows k).latest ∧ (E.trip k).destination.latest = .inf := by
  obtain ⟨trips, s, s', e, h⟩ := hl.trips
  obtain ⟨trips', s'', e', hlen, _, ht, _⟩ := C51_one_trip_per_ride hd s
  rw [e] at e'
  cases e'
  obtain ⟨t, hk'⟩ : ∃ t, trips[k]? = some t := ⟨_, List.getElem?_eq_getElem (by omega)⟩
  obtain ⟨_, h1, h2, h3, row, x1, y1, x2, y2, e, l, hrow, ⟨rfl⟩, h4, h5, h6, h7, h8, h9, h10, h11⟩ := ht k t hk'
  have hc : contestRide rows k = ⟨x1, y1, x2, y2, e, l⟩ := by
    unfold contestRide
    rw [hrow]
  rw [hc, h k t hk']
  exact ⟨h7, h9⟩

theorem loaded_depot (hd : HashCodeData rows f n b T) (hl : LoadedHashCode E rows) {k : Nat} (hk : k < f) :
    (E.vehicle k).origin.position = [0, 0] ∧ (E.vehicle k).origin.earliest = 0 ∧ (E.vehicle k).destination.position = [0, 0] ∧
    (E.vehicle k).destination.latest = .fin T ∧ (E.vehicle k).capacity = 1 ∧ (E.vehicle k).timeout = .inf := by
  obtain ⟨vs, s, s', e, h⟩ := hl.vehicles
  obtain ⟨vs', s'', e', hlen, _, ht, _⟩ := C51_vehicles hd s
  rw [e] at e'
  cases e'
  obtain ⟨v, hk'⟩ : ∃ t, vs[k]? = some t := ⟨_, List.getElem?_eq_getElem (by omega)⟩
  obtain ⟨_, h1, h2, h3, h4, h5, h6⟩ := ht k v hk'
  rw [h k v hk', h4]
  exact ⟨h1, h2, h1, h3, h5, h6⟩

/-- The times of a vehicle that serves one ride and returns. -/
def roundTimes (r : ContestRide) : List Tm :=
  [⟨0, 0, 0⟩, ⟨grid 0 0 r.startX r.startY, r.startAt 0 0 0, r.startAt 0 0 0⟩,
    ⟨r.startAt 0 0 0 + r.distance, r.startAt 0 0 0 + r.distance, r.startAt 0 0 0 + r.distance⟩,
    ⟨r.startAt 0 0 0 + r.distance + grid r.finishX r.finishY 0 0, r.startAt 0 0 0 + r.distance + grid r.finishX r.finishY 0 0,
      r.startAt 0 0 0 + r.distance + grid r.finishX r.finishY 0 0⟩]

theorem startAt_nonneg (r : ContestRide) : 0 ≤ r.startAt 0 0 0 := by
  unfold ContestRide.startAt
  exact le_max_of_le_left (by linarith [grid_nonneg 0 0 r.startX r.startY])

theorem alone_times (hd : HashCodeData rows f n b T) (hl : LoadedHashCode E rows) {v t : Nat} (hv : v < f) (ht : t < n) :
    vehicleTimetable E (E.vehicle v) (alone E v t) = roundTimes (contestRide rows t) := by
  have k := loaded_rides hd hl ht
  obtain ⟨v1, v2, v3, v4, v5, v6⟩ := loaded_depot hd hl hv
  set r := contestRide rows t
  have hs := startAt_nonneg r
  have hD : 0 ≤ r.distance := grid_nonneg _ _ _ _
  have hB : 0 ≤ grid r.finishX r.finishY 0 0 := grid_nonneg _ _ _ _
  have hA : 0 ≤ grid 0 0 r.startX r.startY := grid_nonneg _ _ _ _
  have h0 : grid 0 0 0 0 = 0 := by simp [grid]
  have hse : r.earliest ≤ r.startAt 0 0 0 := le_max_right _ _
  have hm : ∀ a b x y : ℚ, E.metric [a, b] [x, y] = grid a b x y := fun a b x y => by rw [hl.metric, manhattan_grid]
  have e1 : serve E 0 [0, 0] ⟨[0, 0], none, [], []⟩ = ⟨0, 0, 0⟩ := by
    simp [serve, hm, h0, Visit.earliest, Visit.loadTime, maxD]
  have e2 : serve E 0 [0, 0] ⟨[r.startX, r.startY], none, [t], []⟩ = ⟨grid 0 0 r.startX r.startY, r.startAt 0 0 0, r.startAt 0 0 0⟩ := by
    have : max (grid 0 0 r.startX r.startY) r.earliest = r.startAt 0 0 0 := by rw [ContestRide.startAt, zero_add]
    have h1 : grid 0 0 r.startX r.startY ≤ r.startAt 0 0 0 := this ▸ le_max_left _ _
    simp [serve, hm, Visit.earliest, Visit.loadTime, maxD, Trip.originEarliest, k.timeout, k.earliest, k.boarding, this, h1]
  have e3 : serve E (r.startAt 0 0 0) [r.startX, r.startY] ⟨[r.finishX, r.finishY], none, [], [t]⟩ =
      ⟨r.startAt 0 0 0 + r.distance, r.startAt 0 0 0 + r.distance, r.startAt 0 0 0 + r.distance⟩ := by
    have hr : E.metric [r.startX, r.startY] [r.finishX, r.finishY] = r.distance := hm _ _ _ _
    have h1 : r.earliest + r.distance ≤ r.startAt 0 0 0 + r.distance := by linarith
    have h2 : 0 ≤ r.startAt 0 0 0 + r.distance := by linarith
    simp [serve, hr, Visit.earliest, Visit.loadTime, maxD, Trip.destinationEarliest, Trip.directTime, k.earliest, k.boarding, k.leaving, k.origin,
      k.destination, k.destinationEarliest, h2]
    linarith
  have e4 : serve E (r.startAt 0 0 0 + r.distance) [r.finishX, r.finishY] ⟨[0, 0], none, [], []⟩ =
      ⟨r.startAt 0 0 0 + r.distance + grid r.finishX r.finishY 0 0, r.startAt 0 0 0 + r.distance + grid r.finishX r.finishY 0 0,
        r.startAt 0 0 0 + r.distance + grid r.finishX r.finishY 0 0⟩ := by
    have : 0 ≤ r.startAt 0 0 0 + r.distance + grid r.finishX r.finishY 0 0 := by linarith
    simp [serve, hm, Visit.earliest, Visit.loadTime, maxD, this]
  unfold vehicleTimetable alone roundTimes
  rw [v1, v2, v3, k.origin, k.destination]
  simp only [timetable, e1, e2, e3, e4]

theorem alone_loads (hd : HashCodeData rows f n b T) (hl : LoadedHashCode E rows) {v t : Nat} (ht : t < n) :
    loads E 0 (alone E v t) = [0, 1, 0, 0] := by
  simp [loads, alone, tripsCapacity, (loaded_rides hd hl ht).capacity]

/-- A vehicle of the file can serve a ride, if it serves nothing else, exactly if the round trip of the ride can be made. -/
theorem alone_iff (hd : HashCodeData rows f n b T) (hl : LoadedHashCode E rows) {v t : Nat} (hv : v < f) (ht : t < n) :
    FeasibleItinerary E (E.vehicle v) (alone E v t) ↔ (contestRide rows t).RoundTrip T := by
  have k := loaded_rides hd hl ht
  obtain ⟨c1, c2⟩ := loaded_closing hd hl ht
  obtain ⟨v1, v2, v3, v4, v5, v6⟩ := loaded_depot hd hl hv
  have eT := alone_times hd hl hv ht
  have eL := alone_loads (v := v) hd hl ht
  set r := contestRide rows t
  have hs := startAt_nonneg r
  have hD : 0 ≤ r.distance := grid_nonneg _ _ _ _
  have hse : r.earliest ≤ r.startAt 0 0 0 := le_max_right _ _
  have hb : (0 : ℚ) < errorBound := by norm_num [errorBound]
  have oL : (E.trip t).originLatest E.metric = .fin r.latest := by
    simp [Trip.originLatest, c1, c2, Bound.subQ, Bound.min, Bound.addQ]
  have dL : (E.trip t).destinationLatest = .inf := by
    simp [Trip.destinationLatest, c1, c2, k.timeout, Bound.min, Bound.add, Bound.addQ]
  constructor
  · intro h
    refine ⟨?_, ?_⟩
    · have := (h.trips 1 2 _ _ _ _ _ _ t rfl rfl (by rw [eT]; rfl) (by rw [eT]; rfl) (by rw [eL]; rfl) (by rw [eL]; rfl) (by simp) (by simp)).pickLatest
      rw [oL] at this
      simpa [Bound.addQ, Bound.leQ] using this
    · have := h.vehicle.endTime _ (by rw [eT]; rfl)
      rw [v4] at this
      simpa [Bound.addQ, Bound.leQ] using this
  · rintro ⟨h1, h2⟩
    refine ⟨⟨?_, ?_, ?_, ?_, ?_⟩, ?_⟩
    · simp [alone]
    · rw [eT, v2]
      intro x hx
      simp only [roundTimes, List.head?_cons, Option.mem_def, Option.some.injEq] at hx
      subst hx
      simp only
      linarith
    · simp [alone]
    · rw [eT, v4]
      intro x hx
      simp only [roundTimes, List.getLast?_cons_cons, List.getLast?_singleton, Option.mem_def, Option.some.injEq] at hx
      subst hx
      simpa [Bound.addQ, Bound.leQ] using h2
    · intro x _ y _
      rw [v6]
      rfl
    · intro i j a c x y q q' u hi hj hx hy hq hq' hu hu'
      obtain ⟨rfl, rfl⟩ : i = 1 ∧ u = t := by
        rcases i with _ | _ | _ | _ | i <;> simp [alone] at hi <;> subst hi <;> simp at hu
        exact ⟨rfl, hu⟩
      obtain rfl : j = 2 := by
        rcases j with _ | _ | _ | _ | j <;> simp [alone] at hj <;> subst hj <;> simp at hu'
        rfl
      rw [eT] at hx hy
      rw [eL] at hq hq'
      simp only [roundTimes, List.getElem?_cons_succ, List.getElem?_cons_zero, Option.some.injEq] at hx hy hq hq'
      subst hx hy hq hq'
      refine ⟨?_, ?_, ?_, ?_, ?_, ?_, ?_⟩
      · simp only [Trip.originEarliest, k.timeout, k.earliest]
        linarith
      · rw [oL]
        simpa [Bound.addQ, Bound.leQ] using h1
      · have hm : manhattan [r.startX, r.startY] [r.finishX, r.finishY] = r.distance := manhattan_grid _ _ _ _
        simp only [Trip.destinationEarliest, Trip.directTime, k.earliest, k.boarding, k.origin, k.destination, k.destinationEarliest, hl.metric, hm]
        rw [max_le_iff]
        constructor <;> linarith
      · rw [dL]
        rfl
      · rw [v5]
        linarith
      · rw [v5]
        linarith
      · rw [k.timeout]
        rfl

/-! ## What is served -/

/-- On a route as it should be, serving rides of the file with a vehicle of the file, no detour saves time. -/
theorem hashcode_noShortcut (hd : HashCodeData rows f n b T) (hl : LoadedHashCode E rows) {c : Core} {r : Nat} (hw : WellFormed c r)
    (hv : (c.route r).vehicle < f) (hr : ∀ t ∈ tripsOf c r, t < n) (hp : Proper E (c.route r).vehicle (duties c r)) :
    NoShortcut E ((E.vehicle (c.route r).vehicle).origin.position :: (itinerary c r).map Visit.pos) := by
  obtain ⟨v1, _, v3, _⟩ := loaded_depot hd hl hv
  obtain ⟨mid, e, hmid⟩ := hp
  have two : ∀ q ∈ (E.vehicle (c.route r).vehicle).origin.position :: (itinerary c r).map Visit.pos, q.length = 2 := by
    intro q hq
    rw [List.mem_cons, List.mem_map] at hq
    rcases hq with rfl | ⟨v, hvm, rfl⟩
    · rw [v1]; rfl
    · have hdm : v.duty ∈ duties c r := List.mem_map_of_mem hvm
      rw [e] at hdm
      simp only [List.mem_cons, List.mem_append, List.not_mem_nil, or_false] at hdm
      rcases hdm with h | h | h
      · rw [(Visit.duty_eq h).1]; simp only; rw [v1]; rfl
      · obtain ⟨t, h0 | h0⟩ := hmid _ h
        · obtain ⟨h1, h2, h3⟩ := Visit.duty_eq h0
          have ht : t < n := hr t (List.mem_flatMap.2 ⟨v, hvm, by rw [h2]; simp [pickDuty]⟩)
          rw [h1]; simp only [pickDuty]; rw [(loaded_rides hd hl ht).origin]; rfl
        · obtain ⟨h1, h2, h3⟩ := Visit.duty_eq h0
          obtain ⟨a, d, ed⟩ := List.append_of_mem hvm
          have hpick := hw.itinOK.dropAfter a v d ed t (by rw [h3]; simp [dropDuty])
          have ht : t < n := hr t (by unfold tripsOf; rw [ed, List.flatMap_append]; exact List.mem_append.2 (.inl hpick))
          rw [h1]; simp only [dropDuty]; rw [(loaded_rides hd hl ht).destination]; rfl
      · rw [(Visit.duty_eq h).1]; simp only; rw [v3]; rfl
  intro x hx y hy z hz
  rw [hl.metric]
  exact manhattan_isMetric.triangle x y z (by rw [two x hx, two y hy]) (by rw [two y hy, two z hz])

/-- **C138, no others.** Whatever algorithm made it and however many vehicles there are: a good plan for a Hash Code file serves only
rides for which the round trip can be made. -/
theorem C138_no_other_rides (hd : HashCodeData rows f n b T) {P : Problem} (hP : HashCodeProblem rows f n P) {h : Heap} {rs : List Nat}
    (hg : GoodPlan P.env P.fleet P.job h rs) {t : Nat} (ht : t ∈ rs.flatMap (tripsOf h.core)) : t < n ∧ (contestRide rows t).RoundTrip T := by
  have job : ∀ t ∈ rs.flatMap (tripsOf h.core), t < n := fun t ht => by
    have := hg.planning.job t ht
    rwa [Problem.job, List.mem_range, hP.trips] at this
  refine ⟨job t ht, ?_⟩
  obtain ⟨r, hr, htr⟩ := List.mem_flatMap.1 ht
  have hw := (hg.planning.sound r hr).1
  have hv : (h.core.route r).vehicle < f := by
    have := hg.planning.vehicles.mem_iff.1 (List.mem_map.2 ⟨r, hr, rfl⟩)
    rwa [Problem.fleet, List.mem_range, hP.vehicles] at this
  rcases hg.feasibly hP.rideLimit hP.maxDuration r hr with h0 | h0
  · rw [h0] at htr
    cases htr
  · have tri := hashcode_noShortcut hd hP.loaded hw hv (fun t ht => job t (List.mem_flatMap.2 ⟨r, hr, ht⟩)) (hg.proper r hr)
    obtain ⟨ts, h1⟩ := C134_alone hP.ok h.core r t hw (hg.proper r hr) tri _ h0.timing htr
    exact (alone_iff hd hP.loaded hv (job t ht)).1 (alone_itinerary hP.ok hP.rideLimit (hP.maxDuration _) h1)

/-- **C138, no others, in the file.** -/
theorem C138_no_other_rides_submitted (hd : HashCodeData rows f n b T) {removeEmpty : Bool} {target : Text} {w w' : Site} {P : Problem} {l : List Nat}
    (hs : Submitted rows f n b removeEmpty target w w' P l) :
    ∃ o, w'.file target = some o ∧ ∀ t ∈ (submissionLines o).flatten, t < n ∧ (contestRide rows t).RoundTrip T := by
  obtain ⟨o, ho, _, h2, _⟩ := hs.written
  refine ⟨o, ho, fun t ht => C138_no_other_rides hd hs.problem hs.plan ?_⟩
  have := h2.flatten.mem_iff.1 ht
  exact (List.Sublist.flatten List.filter_sublist).subset this

/-- **C138, all of them.** Insertion with any strategy and all trips considered, and at least as many vehicles as rides, serves
every ride for which the round trip can be made. -/
theorem C138_all_such_rides (hd : HashCodeData rows f n b T) {P : Problem} (hP : HashCodeProblem rows f n P) {S : Settings}
    (hS : S.Of P.env P.fleet P.job) (hi : S.strategy.Tries) (hsz : n ≤ neighborhoodSize S) (ho : S.onlyFeasible = true ∨ S.randomized = 1)
    (hmany : n ≤ f) {h : Heap} {fuel : Nat} {rs : List Nat} {s : IterState} (e : insertionAlgorithm S none fuel (.initial h) = (.ok rs, s))
    {t : Nat} (ht : t < n) (hr : (contestRide rows t).RoundTrip T) : t ∈ rs.flatMap (tripsOf s.heap.core) := by
  have hjob : S.job = List.range n := by rw [hS.job, Problem.job, hP.trips]
  have hfleet : S.fleet = List.range f := by rw [hS.fleet, Problem.fleet, hP.vehicles]
  have hE : EnvOK S.env := by rw [hS.env]; exact hP.ok
  have hc : Clean S := ⟨by rw [hfleet]; exact List.nodup_range, by rw [hjob]; exact List.nodup_range⟩
  obtain ⟨hp, ⟨start, R, k⟩, st⟩ :=
    (insertionAlgorithm_meets (md := .exact) (h0 := h) (initial := none) hE hS.fair hc hS.randomized (fun _ => by rw [hS.env]; exact hP.rideLimit)
      (fun _ h => nomatch h) fuel).ok e
  by_contra hn
  have htr : t ∈ s.pending := by
    have := k.trips.mem_iff.2 (by rw [hjob]; exact List.mem_range.2 ht)
    rcases List.mem_append.1 this with h | h
    · exact h
    · refine absurd ?_ hn
      obtain ⟨x, hx, hxt⟩ := List.mem_flatMap.1 h
      exact List.mem_flatMap.2 ⟨x.2, hp.mem_iff.2 (List.mem_map.2 ⟨x, hx, rfl⟩), hxt⟩
  obtain ⟨x, hxm, -, hno⟩ := k.idle_rejects hE st hi (by rw [hjob, List.length_range]; exact hsz) ho
    (k.some_idle (by rw [hjob, hfleet, List.length_range, List.length_range]; exact hmany) (List.ne_nil_of_mem htr))
  have hv : x.1 < f := by
    have := k.keys.mem_iff.1 (List.mem_map.2 ⟨x, hxm, rfl⟩)
    rwa [hfleet, List.mem_range] at this
  refine hno t htr ?_
  rw [hS.env]
  exact (alone_iff hd hP.loaded hv ht).2 hr

/-! ## From file to file -/

/-- All pairs of positions are tried: with the intensive strategy, or because there are no more than are to be sampled. -/
def Strategy.Thorough (st : Strategy) (n : Nat) : Prop :=
  st = .intensive ∨ ∃ count fuel rnd, st = .sampling count fuel rnd ∧ (2 * n + 2).choose 2 ≤ count

theorem insertionOptimize_thorough {fleet job : List Nat} (hE : EnvOK E) (hfn : fleet.Nodup) (hjn : job.Nodup) {S : Heap → Settings}
    (hS : ∀ h, (S h).Of E fleet job) (ht : ∀ h, (S h).strategy.Thorough job.length) (k : Objective) (fuel : Nat) :
    insertionOptimize E k S fuel none = insertionOptimize E k (fun h => { S h with strategy := .intensive }) fuel none := by
  have : (fun h => insertionPlanning (S h) none fuel h) = fun h => insertionPlanning { S h with strategy := .intensive } none fuel h := by
    funext h
    have e : insertionAlgorithm (S h) none fuel (.initial h) = insertionAlgorithm { S h with strategy := .intensive } none fuel (.initial h) := by
      rcases ht h with hi | ⟨count, sfuel, rnd, hi, hcount⟩
      · congr 1
        rw [← hi]
      · have hF : Fair { S h with strategy := .intensive } := ⟨(hS h).fair.order, (hS h).fair.choice, fun _ _ _ e => nomatch e⟩
        have := C113_insertion_without_sampling (S := S h) (by rw [(hS h).env]; exact hE) hF
          ⟨by rw [(hS h).fleet]; exact hfn, by rw [(hS h).job]; exact hjn⟩ (hS h).randomized (count := count)
          (by rw [(hS h).job]; exact hcount) (h0 := h) (initial := none) (fun _ e => nomatch e) sfuel rnd fuel
        rw [← this]
        congr 1
        rw [← hi]
    unfold insertionPlanning
    rw [e]
  unfold insertionOptimize
  rw [this]

/-- The planning an optimisation by insertion returns is that of the algorithm, the log leaves the routes as they are. -/
theorem insertionOptimize_ok {fleet job : List Nat} (hE : EnvOK E) (hf : fleet ≠ []) (hfn : fleet.Nodup) (hjn : job.Nodup) {S : Heap → Settings}
    (hS : ∀ h, (S h).Of E fleet job) {h h' : Heap} (nd : NoDangling h.core) {k : Objective} {fuel : Nat} {l : List Nat}
    (e : insertionOptimize E k S fuel none h = (.ok l, h')) :
    ∃ s, insertionAlgorithm (S h) none fuel (.initial h) = (.ok l, s) ∧ h'.core = s.heap.core := by
  obtain ⟨s1, e, hl⟩ := logged_ok e
  rcases insertionPlanning_run (md := .any) (W := fun _ => True) (K := fun v ds => True → Proper E v ds) (k := k) (c0 := h.core) (rs0 := []) hE
    (fun h => nomatch h) hfn hjn (fun _ _ _ => trivial) (proper_movable _) (fun v _ _ => proper_idle v) (hS h) ⟨nd, by simp [RoutesKept]⟩
    (initial := none) (fun _ e => nomatch e) fuel with ⟨l', h1, e1, _, p, _⟩ | ⟨er, h1, e1, _⟩
  · have e : insertionPlanning (S h) none fuel h = (.ok l, s1) := e
    rw [e] at e1
    cases e1
    obtain ⟨h2, e2, g⟩ := logResult_run (k := k) hE hf p
    rw [hl] at e2
    cases e2
    have ef : (insertionAlgorithm (S h) none fuel (.initial h)).1 = .ok l := congrArg Prod.fst e
    have es : (insertionAlgorithm (S h) none fuel (.initial h)).2.heap = s1 := congrArg Prod.snd e
    rcases hr : insertionAlgorithm (S h) none fuel (.initial h) with ⟨x, s⟩
    rw [hr] at ef es
    exact ⟨s, by rw [← ef], by rw [g.core, ← es]⟩
  · have e : insertionPlanning (S h) none fuel h = (.ok l, s1) := e
    rw [e] at e1
    cases e1

/-- Solving a Hash Code file with an algorithm that returns good plans with all the rides for which the round trip can be made. -/
theorem rides_submitted {euclid : Pos → Pos → ℚ} {columnar : OutputFormat} {source target : Text} {removeEmpty : Bool} {w : Site} {text : Text}
    (ht : w.file source = some text) (hr : FileText text rows) (hd : HashCodeData rows f n b T) {optimize : Problem → M (List Nat)}
    (run : ∀ Q, HashCodeProblem rows f n Q → ∃ l h', optimize Q w.data.2 = (.ok l, h') ∧ GoodPlan Q.env Q.fleet Q.job h' l ∧
      ∀ t < n, (contestRide rows t).RoundTrip T → t ∈ l.flatMap (tripsOf h'.core)) :
    ∃ P l w' o, (fileSolver euclid columnar source target hashcodeInput (hashcodeOutput removeEmpty) optimize).solve w = (.ok (.result P l), w') ∧
      Submitted rows f n b removeEmpty target w w' P l ∧ w'.file target = some o ∧ (submissionLines o).flatten.Nodup ∧
      ∀ t, t ∈ (submissionLines o).flatten ↔ t < n ∧ (contestRide rows t).RoundTrip T := by
  obtain ⟨trips, vehicles, s, s', e1, e2, hP⟩ := hashcode_problem hd hr
  set P : Problem := ⟨manhattan, .hashCode, trips, vehicles⟩ with hPdef
  have main := solve_file (euclid := euclid) (columnar := columnar) (target := target) (F := hashcodeInput) (f := hashcodeOutput removeEmpty)
    (optimize := optimize) ht e1 e2
  obtain ⟨l, h', e, -, hall⟩ := run P hP
  have e' : optimize ⟨hashcodeInput.metric, hashcodeInput.objective, trips, vehicles⟩ w.data.2 = (.ok l, h') := e
  rw [e'] at main
  obtain ⟨P', hP', hrun⟩ := hashcode_run (euclid := euclid) (columnar := columnar) (source := source) (target := target) (removeEmpty := removeEmpty) (w := w)
    (optimize := optimize) ht hr hd (fun Q hQ => by
      obtain ⟨l, h', e, g, -⟩ := run Q hQ
      exact .inl ⟨l, h', e, g⟩)
  rcases hrun with ⟨l', w', er, hs⟩ | ⟨h2, w', _, er, _⟩
  · have main := er.symm.trans main
    have mP := congrArg (fun x => x.1) main
    have mw : w'.data.2 = h' := congrArg (fun x => x.2.data.2) main
    cases mP
    obtain ⟨o, hof, _, hperm, _⟩ := hs.written
    have hmem : ∀ t, t ∈ (submissionLines o).flatten ↔ t ∈ l.flatMap (tripsOf w'.data.2.core) := by
      intro t
      rw [hperm.flatten.mem_iff]
      refine ⟨fun h => (List.Sublist.flatten List.filter_sublist).subset h, fun h => ?_⟩
      obtain ⟨r, hrl, htr⟩ := List.mem_flatMap.1 h
      refine List.mem_flatten.2 ⟨tripsOf w'.data.2.core r, List.mem_filter.2 ⟨List.mem_map_of_mem hrl, ?_⟩, htr⟩
      simp [List.ne_nil_of_mem htr]
    refine ⟨P, l, w', o, er, hs, hof, ?_, fun t => ?_⟩
    · rw [hperm.flatten.nodup_iff]
      exact List.Nodup.sublist (List.Sublist.flatten List.filter_sublist) hs.plan.planning.trips
    · rw [hmem]
      refine ⟨fun h => C138_no_other_rides hd hs.problem hs.plan h, fun ⟨h1, h2⟩ => ?_⟩
      rw [mw]
      exact hall t h1 h2
  · have main := er.symm.trans main
    have := congrArg (fun x => x.1) main
    cases this

/-- Insertion that tries all trips, and whose sampling ends, returns such plans. -/
theorem insertion_all_such_rides (hd : HashCodeData rows f n b T) (hf : 0 < f) (hmany : n ≤ f) {S : Problem → Heap → Settings}
    (hS : ∀ P h, (S P h).Of P.env P.fleet P.job) (hst : ∀ P h, (S P h).strategy.Tries) (hends : ∀ P h, (S P h).strategy.Ends)
    (hsz : ∀ P h, P.job.length ≤ neighborhoodSize (S P h)) (ho : ∀ P h, (S P h).onlyFeasible = true ∨ (S P h).randomized = 1)
    {h : Heap} (nd : NoDangling h.core) {fuel : Nat} (hn : n < fuel) {Q : Problem} (hQ : HashCodeProblem rows f n Q) :
    ∃ l h', insertionOptimize Q.env Q.objective (S Q) fuel none h = (.ok l, h') ∧ GoodPlan Q.env Q.fleet Q.job h' l ∧
      ∀ t < n, (contestRide rows t).RoundTrip T → t ∈ l.flatMap (tripsOf h'.core) := by
  have fne : Q.fleet ≠ [] := by
    rw [Problem.fleet, hQ.vehicles]
    simp [hf.ne']
  have hjl : Q.job.length = n := by rw [Problem.job, List.length_range, hQ.trips]
  obtain ⟨l, h', e⟩ := insertion_returns (fuel := fuel) hQ.ok fne List.nodup_range (List.nodup_range (n := Q.trips.length)) (hS Q) nd Q.objective
    (hends Q) (by rw [List.length_range, hQ.trips]; exact hn)
  obtain ⟨s, e1, hcore⟩ := insertionOptimize_ok hQ.ok fne List.nodup_range (List.nodup_range (n := Q.trips.length)) (hS Q) nd e
  refine ⟨l, h', e, ?_, fun t h1 h2 => ?_⟩
  · rcases insertion_planned (fuel := fuel) hQ.ok fne List.nodup_range (List.nodup_range (n := Q.trips.length)) (hS Q) nd Q.objective with
      ⟨l', h2, e2, g⟩ | ⟨h2, e2⟩
    · exact by rw [e] at e2; cases e2; exact g
    · exact by rw [e] at e2; cases e2
  · rw [hcore]
    exact C138_all_such_rides hd hQ (hS Q h) (hst Q h) (by have := hsz Q h; rw [hjl] at this; exact this) (ho Q h) hmany e1 h1 h2

/-- **C138.** Solving a Hash Code file with at least as many vehicles as rides by insertion, whatever the strategy, as long as it tries all trips and its sampling ends,
writes a submission with exactly the rides for which the round trip can be made, each once. -/
theorem C138_any_strategy {euclid : Pos → Pos → ℚ} {columnar : OutputFormat} {source target : Text} {removeEmpty : Bool} {w : Site} {text : Text}
    (ht : w.file source = some text) (hr : FileText text rows) (hd : HashCodeData rows f n b T) (hf : 0 < f) (hmany : n ≤ f)
    {S : Problem → Heap → Settings} (hS : ∀ P h, (S P h).Of P.env P.fleet P.job) (hst : ∀ P h, (S P h).strategy.Tries)
    (hends : ∀ P h, (S P h).strategy.Ends) (hsz : ∀ P h, P.job.length ≤ neighborhoodSize (S P h))
    (ho : ∀ P h, (S P h).onlyFeasible = true ∨ (S P h).randomized = 1) (nd : NoDangling w.data.2.core) {fuel : Nat} (hn : n < fuel) :
    ∃ P l w' o, (fileSolver euclid columnar source target hashcodeInput (hashcodeOutput removeEmpty) fun P =>
        insertionOptimize P.env P.objective (S P) fuel none).solve w = (.ok (.result P l), w') ∧
      Submitted rows f n b removeEmpty target w w' P l ∧ w'.file target = some o ∧ (submissionLines o).flatten.Nodup ∧
      ∀ t, t ∈ (submissionLines o).flatten ↔ t < n ∧ (contestRide rows t).RoundTrip T := by
  exact rides_submitted ht hr hd fun Q hQ => insertion_all_such_rides hd hf hmany hS hst hends hsz ho nd hn hQ

/-- **C138, few rides.** The same with samples that are not smaller than the number of pairs of positions; nothing is drawn then. -/
theorem C138_rides_submitted {euclid : Pos → Pos → ℚ} {columnar : OutputFormat} {source target : Text} {removeEmpty : Bool} {w : Site} {text : Text}
    (ht : w.file source = some text) (hr : FileText text rows) (hd : HashCodeData rows f n b T) (hf : 0 < f) (hmany : n ≤ f)
    {S : Problem → Heap → Settings} (hS : ∀ P h, (S P h).Of P.env P.fleet P.job) (hst : ∀ P h, (S P h).strategy.Thorough P.job.length)
    (hsz : ∀ P h, P.job.length ≤ neighborhoodSize (S P h)) (ho : ∀ P h, (S P h).onlyFeasible = true ∨ (S P h).randomized = 1)
    (nd : NoDangling w.data.2.core) {fuel : Nat} (hn : n < fuel) :
    ∃ P l w' o, (fileSolver euclid columnar source target hashcodeInput (hashcodeOutput removeEmpty) fun P =>
        insertionOptimize P.env P.objective (S P) fuel none).solve w = (.ok (.result P l), w') ∧
      Submitted rows f n b removeEmpty target w w' P l ∧ w'.file target = some o ∧ (submissionLines o).flatten.Nodup ∧
      ∀ t, t ∈ (submissionLines o).flatten ↔ t < n ∧ (contestRide rows t).RoundTrip T := by
  refine rides_submitted ht hr hd fun Q hQ => ?_
  rw [insertionOptimize_thorough hQ.ok List.nodup_range List.nodup_range (hS Q) (hst Q)]
  exact insertion_all_such_rides (S := fun P h => { S P h with strategy := .intensive }) hd hf hmany
    (fun P h => ⟨(hS P h).env, (hS P h).fleet, (hS P h).job, ⟨(hS P h).fair.order, (hS P h).fair.choice, fun _ _ _ e => nomatch e⟩, (hS P h).randomized⟩)
    (fun _ _ => by intro _ _ _ h; cases h) (fun _ _ => by intro _ _ _ h; cases h) hsz ho nd hn hQ

/-! ## What the contest asks for -/

/-- What one would expect with a vehicle for each ride: when the solver returns, all rides that can be delivered in time are in the submission. -/
def SubmitsDeliverable (rows : Rows) (n : Nat) (T : ℚ) (source target : Text) (optimize : Problem → M (List Nat)) : Prop :=
  ∀ (euclid : Pos → Pos → ℚ) (columnar : OutputFormat) (w : Site) (text : Text) (x : Item) (w' : Site), w.file source = some text → FileText text rows →
    NoDangling w.data.2.core → (fileSolver euclid columnar source target hashcodeInput (hashcodeOutput true) optimize).solve w = (.ok x, w') →
    ∃ o, w'.file target = some o ∧ ∀ t < n, (contestRide rows t).Deliverable T → t ∈ (submissionLines o).flatten

/-- One vehicle, and one ride that leads away from `(0, 0)` and can be delivered in time, but not with the way back. -/
def awayInput : Text := "9 9 1 1 2 8\n0 0 5 0 0 8\n".toList

def awayRows : Rows := [[9, 9, 1, 1, 2, 8], [0, 0, 5, 0, 0, 8]]

theorem awayInput_rows : FileText awayInput awayRows := fileData_iff.1 (C84_plain_rows [[9, 9, 1, 1, 2, 8], [0, 0, 5, 0, 0, 8]])

theorem awayRows_shape : HashCodeData awayRows 1 1 2 8 where
  header := ⟨9, 9, 1, [], by simp [awayRows]⟩
  length := rfl
  rides k hk := by
    obtain rfl : k = 0 := by omega
    exact ⟨_, 0, 0, 5, 0, 0, 8, rfl, ⟨rfl⟩⟩

/-- Whatever the settings of the insertion algorithm: the ride is worth seven points, there is a vehicle for it, and it is not submitted. -/
theorem C138_way_back_needed {S : Problem → Heap → Settings} (hS : ∀ P h, (S P h).Of P.env P.fleet P.job)
    (hstr : ∀ P h, (S P h).strategy.Ends) {fuel : Nat} (hn : 1 < fuel) {source target : Text} :
    contestScore awayRows 2 [[0]] = 7 ∧
    ¬ SubmitsDeliverable awayRows 1 8 source target fun P => insertionOptimize P.env P.objective (S P) fuel none := by
  refine ⟨by decide +kernel, fun h => ?_⟩
  let w : Site := ⟨({ content := .ok [] }, .empty), fun _ => some awayInput, [], [], []⟩
  obtain ⟨P, l, w', e, hs⟩ := C86_insertion_submission_partial (euclid := manhattan) (columnar := fun _ _ => pure []) (source := source) (target := target)
    (removeEmpty := true) (w := w) rfl awayInput_rows awayRows_shape (by omega) hS hstr empty_noDangling hn
  obtain ⟨o, ho, hall⟩ := h manhattan (fun _ _ => pure []) w awayInput _ w' rfl awayInput_rows empty_noDangling e
  obtain ⟨o', ho', hno⟩ := C138_no_other_rides_submitted awayRows_shape hs
  rw [ho] at ho'
  cases ho'
  have hd : (contestRide awayRows 0).Deliverable 8 := ⟨by decide +kernel, by decide +kernel⟩
  have := (hno 0 (hall 0 (by omega) hd)).2.back
  revert this
  decide +kernel

/-! ## Cases -/

theorem demoRides_roundTrip : (contestRide demoHashCode 0).RoundTrip 10 ∧ (contestRide demoHashCode 1).RoundTrip 10 :=
  ⟨⟨by decide +kernel, by decide +kernel⟩, ⟨by decide +kernel, by decide +kernel⟩⟩

/-- Two vehicles and two rides, both of which allow a round trip: both are submitted, also with samples of 128 pairs, whatever the random numbers. -/
example (rnd : Nat → Nat → Nat → Nat → Nat) (hrnd : ∀ m k lo hi, lo ≤ hi → lo ≤ rnd m k lo hi ∧ rnd m k lo hi ≤ hi) :
    ∃ P l w' o, (fileSolver manhattan (fun _ _ => pure []) "a.in".toList "a.out".toList hashcodeInput (hashcodeOutput true) fun P =>
        insertionOptimize P.env P.objective (fun _ => plainSettings P.env P.fleet P.job
          (if P.job.length ≤ 7 then .sampling 128 0 rnd else .intensive) 1) 5 none).solve demoSite = (.ok (.result P l), w') ∧
      w'.file "a.out".toList = some o ∧ 0 ∈ (submissionLines o).flatten ∧ 1 ∈ (submissionLines o).flatten := by
  obtain ⟨P, l, w', o, e, -, ho, -, hiff⟩ := C138_rides_submitted (euclid := manhattan) (columnar := fun _ _ => pure []) (source := "a.in".toList)
    (target := "a.out".toList) (removeEmpty := true) (w := demoSite) (text := demoInput) (S := fun P _ => plainSettings P.env P.fleet P.job
      (if P.job.length ≤ 7 then .sampling 128 0 rnd else .intensive) 1) (fuel := 5) (by simp [demoSite]) demoInput_rows demoHashCode_shape
    (by omega) (by omega) (fun P _ => ⟨rfl, rfl, rfl, ⟨(plainSettings_fair P.env P.fleet P.job 1).order, (plainSettings_fair P.env P.fleet P.job 1).choice, fun c u r e => by
      dsimp only [plainSettings] at e
      split at e
      · cases e
        exact hrnd
      · cases e⟩, Nat.one_pos⟩)
    (fun P _ => by
      by_cases h : P.job.length ≤ 7
      · exact .inr ⟨128, 0, rnd, by simp [plainSettings, h], (C113_seven_trips _).2 h⟩
      · exact .inl (by simp [plainSettings, h]))
    (fun P _ => by simp [neighborhoodSize, plainSettings]) (fun _ _ => .inr rfl) empty_noDangling (by omega)
  exact ⟨P, l, w', o, e, ho, (hiff 0).2 ⟨by omega, demoRides_roundTrip.1⟩, (hiff 1).2 ⟨by omega, demoRides_roundTrip.2⟩⟩

/-- Both are submitted with insertions at the end of routes only, and with samples of one pair, whatever the random numbers. -/
example (rnd : Nat → Nat → Nat → Nat → Nat) (hrnd : ∀ m k lo hi, lo ≤ hi → lo ≤ rnd m k lo hi ∧ rnd m k lo hi ≤ hi) (st : Strategy)
    (hst : st = .tail ∨ st = .sampling 1 1 rnd) :
    ∃ P l w' o, (fileSolver manhattan (fun _ _ => pure []) "a.in".toList "a.out".toList hashcodeInput (hashcodeOutput true) fun P =>
        insertionOptimize P.env P.objective (fun _ => plainSettings P.env P.fleet P.job st 1) 5 none).solve demoSite = (.ok (.result P l), w') ∧
      w'.file "a.out".toList = some o ∧ 0 ∈ (submissionLines o).flatten ∧ 1 ∈ (submissionLines o).flatten := by
  have hends : st.Ends := by
    rintro c u r e k n -
    rcases hst with rfl | rfl <;> cases e
    unfold sampleIndexPairs
    split
    · rfl
    · simp [samplePairsLoop]
  obtain ⟨P, l, w', o, e, -, ho, -, hiff⟩ := C138_any_strategy (euclid := manhattan) (columnar := fun _ _ => pure []) (source := "a.in".toList)
    (target := "a.out".toList) (removeEmpty := true) (w := demoSite) (text := demoInput) (S := fun P _ => plainSettings P.env P.fleet P.job st 1) (fuel := 5)
    (by simp [demoSite]) demoInput_rows demoHashCode_shape
    (by omega) (by omega) (fun P _ => ⟨rfl, rfl, rfl, ⟨(plainSettings_fair P.env P.fleet P.job 1).order, (plainSettings_fair P.env P.fleet P.job 1).choice, fun c u r e => by
      rcases hst with rfl | rfl <;> cases e
      exact hrnd⟩, Nat.one_pos⟩)
    (fun P _ => by
      intro c u r e
      rcases hst with rfl | rfl <;> cases e
      exact Nat.one_pos)
    (fun P _ => hends) (fun P _ => by simp [neighborhoodSize, plainSettings]) (fun _ _ => .inr rfl) empty_noDangling (by omega)
  exact ⟨P, l, w', o, e, ho, (hiff 0).2 ⟨by omega, demoRides_roundTrip.1⟩, (hiff 1).2 ⟨by omega, demoRides_roundTrip.2⟩⟩

end Jinete
