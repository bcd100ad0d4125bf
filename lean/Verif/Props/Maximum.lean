import Verif.Props.Subset
import Verif.Props.Insertion

/-!
# C135: enough vehicles

What the insertion algorithm leaves out when a vehicle stays idle.
-/

set_option autoImplicit false

namespace Jinete

variable {S : Settings} {h : Heap}

/-- A way to serve trips: some routes of vehicles of the fleet that visit the right places, with times at which they can be driven, on a
map where no detour saves time. -/
structure Served (E : Env) (fleet : List Nat) (c : Core) (q : Nat) : Prop where
  wf : WellFormed c q
  fleet : (c.route q).vehicle ∈ fleet
  proper : Proper E (c.route q).vehicle (duties c q)
  detours : NoShortcut E ((E.vehicle (c.route q).vehicle).origin.position :: (itinerary c q).map Visit.pos)
  times : ∃ ts, FeasibleTiming E (E.vehicle (c.route q).vehicle) (itinerary c q) ts

theorem alone_itinerary {E : Env} (hE : EnvOK E) (hx : ∀ t, (E.trip t).timeout = .inf) {v t : Nat} (hlim : (E.vehicle v).timeout = .inf)
    {ts : List Tm} (h1 : FeasibleTiming E (E.vehicle v) (alone E v t) ts) : FeasibleItinerary E (E.vehicle v) (alone E v t) := by
  refine h1.itinerary hE (honours_unrequested ?_) (waitsOutside_unlimited hx hlim) ?_
  · intro v hv
    simp only [alone, List.mem_cons, List.not_mem_nil, or_false] at hv
    rcases hv with rfl | rfl | rfl | rfl <;> rfl
  · intro i j v w k hi hj hk hk'
    have : i = 1 := by
      rcases i with _ | _ | _ | _ | i <;> simp [alone] at hi <;> subst hi <;> simp at hk
      rfl
    have : j = 2 := by
      rcases j with _ | _ | _ | _ | j <;> simp [alone] at hj <;> subst hj <;> simp at hk'
      rfl
    omega

theorem Grown.untouched {E : Env} {ds ds' : List Duty} (g : Grown E ds ds') (h : ds'.flatMap Duty.picks = []) : ds' = ds := by
  cases g with
  | refl => rfl
  | @insert ds' t i j g hij hj =>
    have := (withTrip_picks E (t := t) (l := ds') hij).length_eq
    rw [h] at this
    simp at this

theorem Running.idle_rejects {start : List Nat} {R : Nat → Prop} {s : IterState} (k : Running S .exact h none start R s)
    (hE : EnvOK S.env) (st : Stopped S s) (hi : S.strategy.Tries) (hsz : S.job.length ≤ neighborhoodSize S)
    (ho : S.onlyFeasible = true ∨ S.randomized = 1) (he : ∃ e ∈ s.container, tripsOf s.heap.core e.2 = []) :
    ∃ e ∈ s.container, tripsOf s.heap.core e.2 = [] ∧
      ∀ t ∈ s.pending, ¬ FeasibleItinerary S.env (S.env.vehicle e.1) (alone S.env e.1 t) := by
  have loaded : ∀ r, routeLoaded s.heap.core r = false ↔ tripsOf s.heap.core r = [] := by
    intro r
    rw [tripsOf_eq]
    unfold routeLoaded routeTrips
    simp
  obtain ⟨e0, he0, hl0⟩ := he
  obtain ⟨a, ha, hid⟩ := k.idle rfl
  obtain ⟨⟨v, r⟩, he, hra, hl⟩ := hid.2 ⟨e0, he0, (loaded _).2 hl0⟩
  have hl := (loaded _).1 hl
  refine ⟨(v, r), he, hl, fun t ht hf => ?_⟩
  change (v, r) ∈ s.container at he
  have hv : (s.heap.core.route r).vehicle = v := (k.routes _ he).2
  obtain ⟨a', ha', hveh⟩ := k.vehicles
  rw [ha] at ha'
  cases ha'
  obtain ⟨⟨w, l⟩, hwl, hw⟩ := List.mem_map.1 ((hveh v).2 ⟨r, hra, hv⟩)
  change w = v at hw
  subst hw
  have h2 : (s.heap.core.route r).stops.length = 2 := by
    obtain ⟨ds, d1, d2⟩ := k.grown _ he
    have hd := d2.untouched (by rw [← picks_duties]; exact hl)
    change ds = [_, _] at d1
    have := congrArg List.length (hd.trans d1)
    simpa [duties, itinerary] using this
  obtain ⟨q, b, hq, hc, hqv, hqd, hb, hiff⟩ := (k.sub w l r hwl he).alone rfl ⟨hi, hsz⟩ h2 t ht
  have hfalse : s.heap.rfeas q = some false := by
    rcases hc with hc | hc
    · exact k.infeasible hE st ho ⟨l, hwl, hc⟩
    · exact hc
  rw [hb] at hfalse
  cases hfalse
  rw [k.bare rfl _ he h2] at hiff
  have := hiff.2 (postponed_feasible (E := S.env) (S.env.vehicle w) _ rfl rfl hf (.inl rfl))
  cases this

/-- **C135, a vehicle that stays idle.** With any strategy that tries a pair of positions on a new planning, a neighbourhood that is not
smaller than the job, and either `only_feasible` or `randomized_size = 1`, and no limits on rides and tours: if a route of the result serves nobody, then
one of the vehicles without trips can serve none of the trips left out on any route, whatever else it serves and at whatever times. -/
theorem C135_idle_vehicle (hE : EnvOK S.env) (hF : Fair S) (hc : Clean S) (hn : 0 < S.randomized) (hi : S.strategy.Tries)
    (hsz : S.job.length ≤ neighborhoodSize S) (ho : S.onlyFeasible = true ∨ S.randomized = 1)
    (hx : ∀ t, (S.env.trip t).timeout = .inf) (hlim : ∀ v ∈ S.fleet, (S.env.vehicle v).timeout = .inf) {fuel : Nat} {rs : List Nat}
    {s : IterState} (e : insertionAlgorithm S none fuel (.initial h) = (.ok rs, s)) (hidle : ∃ r ∈ rs, tripsOf s.heap.core r = []) :
    ∃ r ∈ rs, tripsOf s.heap.core r = [] ∧ ∀ t ∈ s.pending, ∀ (c : Core) (q : Nat),
      (c.route q).vehicle = (s.heap.core.route r).vehicle → Served S.env S.fleet c q → t ∉ tripsOf c q := by
  obtain ⟨hp, ⟨start, R, k⟩, st⟩ :=
    (insertionAlgorithm_meets (md := .exact) (h0 := h) (initial := none) hE hF hc hn (fun _ => hx) (fun _ h => nomatch h) fuel).ok e
  obtain ⟨r0, hr0, hl0⟩ := hidle
  obtain ⟨e0, he0, rfl⟩ := List.mem_map.1 (hp.mem_iff.1 hr0)
  obtain ⟨x, hxm, hxl, hno⟩ := k.idle_rejects hE st hi hsz ho ⟨e0, he0, hl0⟩
  refine ⟨x.2, hp.mem_iff.2 (List.mem_map.2 ⟨x, hxm, rfl⟩), hxl, fun t ht c q hv hs htq => ?_⟩
  have hxv := (k.routes x hxm).2
  rw [hxv] at hv
  obtain ⟨ts, hts⟩ := hs.times
  obtain ⟨ts', h1⟩ := C134_alone hE c q t hs.wf hs.proper hs.detours ts hts htq
  rw [hv] at h1
  exact hno t ht (alone_itinerary hE hx (hlim _ (hv ▸ hs.fleet)) h1)

/-- With at least as many vehicles as trips, a trip that is left out leaves a vehicle idle. -/
theorem Running.some_idle {md : Mode} {initial : Option (List Nat)} {start : List Nat} {R : Nat → Prop} {s : IterState}
    (k : Running S md h initial start R s) (hmany : S.job.length ≤ S.fleet.length) (hne : s.pending ≠ []) :
    ∃ e ∈ s.container, tripsOf s.heap.core e.2 = [] := by
  by_contra hno
  have hone : ∀ l : List (Nat × Nat), (∀ e ∈ l, tripsOf s.heap.core e.2 ≠ []) →
      l.length ≤ (l.flatMap fun e => tripsOf s.heap.core e.2).length := by
    intro l
    induction l with
    | nil => simp
    | cons x l ih =>
      intro hl
      have h1 := ih fun e he => hl e (by simp [he])
      have h2 : 0 < (tripsOf s.heap.core x.2).length := List.length_pos_of_ne_nil (hl x (by simp))
      simp only [List.flatMap_cons, List.length_append, List.length_cons]
      omega
  have h1 := hone s.container fun e he h0 => hno ⟨e, he, h0⟩
  have h2 := k.trips.length_eq
  have h3 := k.keys.length_eq
  have h4 : 0 < s.pending.length := List.length_pos_of_ne_nil hne
  rw [List.length_append] at h2
  rw [List.length_map] at h3
  omega

/-- **C135, everybody is served.** With at least as many vehicles as trips, if every vehicle can serve every trip of the job when it
serves nothing else, then all trips are served; tours may be limited and detours may save time. -/
theorem C135_all_served (hE : EnvOK S.env) (hF : Fair S) (hc : Clean S) (hn : 0 < S.randomized) (hi : S.strategy.Tries)
    (hsz : S.job.length ≤ neighborhoodSize S) (ho : S.onlyFeasible = true ∨ S.randomized = 1)
    (hx : ∀ t, (S.env.trip t).timeout = .inf) (hmany : S.job.length ≤ S.fleet.length)
    (halone : ∀ v ∈ S.fleet, ∀ t ∈ S.job, FeasibleItinerary S.env (S.env.vehicle v) (alone S.env v t)) {fuel : Nat}
    {rs : List Nat} {s : IterState} (e : insertionAlgorithm S none fuel (.initial h) = (.ok rs, s)) :
    (rs.flatMap (tripsOf s.heap.core)).Perm S.job := by
  obtain ⟨hp, ⟨start, R, k⟩, st⟩ :=
    (insertionAlgorithm_meets (md := .exact) (h0 := h) (initial := none) hE hF hc hn (fun _ => hx) (fun _ h => nomatch h) fuel).ok e
  have hnil : s.pending = [] := by
    by_contra hne
    obtain ⟨x, hxm, -, hno⟩ := k.idle_rejects hE st hi hsz ho (k.some_idle hmany hne)
    obtain ⟨t, ht⟩ := List.exists_mem_of_ne_nil _ hne
    exact hno t ht (halone _ (k.keys.mem_iff.1 (List.mem_map.2 ⟨x, hxm, rfl⟩)) t (k.trips.mem_iff.1 (List.mem_append.2 (.inl ht))))
  have := k.trips
  rw [hnil, List.nil_append] at this
  refine (hp.flatMap_right _).trans ?_
  rw [List.flatMap_map]
  exact this

/-- **C135.** As in `C135_idle_vehicle`; if moreover the vehicles are alike and at least as many as the trips, then no vehicle can serve a trip left out on any
route, and no planning serves more trips of the job than the result. -/
theorem C135_enough_vehicles (hE : EnvOK S.env) (hF : Fair S) (hc : Clean S) (hn : 0 < S.randomized) (hi : S.strategy.Tries)
    (hsz : S.job.length ≤ neighborhoodSize S) (ho : S.onlyFeasible = true ∨ S.randomized = 1)
    (hx : ∀ t, (S.env.trip t).timeout = .inf) (hlim : ∀ v ∈ S.fleet, (S.env.vehicle v).timeout = .inf)
    (halike : ∀ v ∈ S.fleet, ∀ w ∈ S.fleet, S.env.vehicle v = S.env.vehicle w) (hmany : S.job.length ≤ S.fleet.length) {fuel : Nat}
    {rs : List Nat} {s : IterState} (e : insertionAlgorithm S none fuel (.initial h) = (.ok rs, s)) :
    (∀ t ∈ S.job, t ∉ rs.flatMap (tripsOf s.heap.core) → ∀ (c : Core) (q : Nat), Served S.env S.fleet c q → t ∉ tripsOf c q) ∧
    (∀ (c : Core) (qs : List Nat), (∀ q ∈ qs, Served S.env S.fleet c q) → (qs.flatMap (tripsOf c)).Nodup →
      (∀ t ∈ qs.flatMap (tripsOf c), t ∈ S.job) → (qs.flatMap (tripsOf c)).length ≤ (rs.flatMap (tripsOf s.heap.core)).length) := by
  obtain ⟨hp, ⟨start, R, k⟩, st⟩ :=
    (insertionAlgorithm_meets (md := .exact) (h0 := h) (initial := none) hE hF hc hn (fun _ => hx) (fun _ h => nomatch h) fuel).ok e
  have htr : (rs.flatMap (tripsOf s.heap.core)).Perm (s.container.flatMap fun e => tripsOf s.heap.core e.2) := by
    refine (hp.flatMap_right _).trans ?_
    rw [List.flatMap_map]
  have first : ∀ t ∈ S.job, t ∉ rs.flatMap (tripsOf s.heap.core) → ∀ (c : Core) (q : Nat), Served S.env S.fleet c q → t ∉ tripsOf c q := by
    intro t htj htn c q hs htq
    have htp : t ∈ s.pending := by
      rcases List.mem_append.1 (k.trips.mem_iff.2 htj) with h1 | h1
      · exact h1
      · exact (htn (htr.mem_iff.2 h1)).elim
    obtain ⟨x, hxm, hxl, hno⟩ := k.idle_rejects hE st hi hsz ho (k.some_idle hmany (List.ne_nil_of_mem htp))
    obtain ⟨ts, hts⟩ := hs.times
    obtain ⟨ts', h1⟩ := C134_alone hE c q t hs.wf hs.proper hs.detours ts hts htq
    have hxf : x.1 ∈ S.fleet := k.keys.mem_iff.1 (List.mem_map.2 ⟨x, hxm, rfl⟩)
    have hal := halike _ hs.fleet _ hxf
    have hsame : alone S.env (c.route q).vehicle t = alone S.env x.1 t := by unfold alone; rw [hal]
    rw [hal, hsame] at h1
    exact hno t htp (alone_itinerary hE hx (hlim _ hxf) h1)
  refine ⟨first, fun c qs hs hnd hj => ?_⟩
  refine (hnd.subperm fun t ht => ?_).length_le
  by_contra hn
  obtain ⟨q, hq, htq⟩ := List.mem_flatMap.1 ht
  exact first t (hj t ht) hn c q (hs q hq) htq

/-- Vehicle `v` of `farEnv` serving trip `t` alone, before any verdict is memoised. -/
def farAlone (v t : Nat) : Heap :=
  { ((do let r ← newRoute farEnv v; compute farEnv true r [t] 0 1 : M (List Nat)) Heap.empty).2 with
    sfeas := fun _ => none, pfeas := fun _ => none, rfeas := fun _ => none }

theorem far_alone : ∀ v ∈ [0, 1], ∀ t ∈ [0, 1], FeasibleItinerary farEnv (farEnv.vehicle v) (alone farEnv v t) := by
  have key : ∀ v t, wfB (farAlone v t).core 1 = true → agreeB farEnv (farAlone v t) 1 = true →
      (routeFeasible farEnv 1 (farAlone v t)).1 = .ok true → ((farAlone v t).core.route 1).vehicle = v →
      itinerary (farAlone v t).core 1 = alone farEnv v t → FeasibleItinerary farEnv (farEnv.vehicle v) (alone farEnv v t) := by
    intro v t h1 h2 h3 h4 h5
    obtain ⟨b, h', e, hb, _⟩ := C18_feasible_iff_constraints farEnv_ok (farAlone v t) 1 (wfB_sound h1) (agreeB_sound h2)
      ⟨rfl, fun _ _ => rfl, fun _ _ _ _ => rfl⟩
    rw [e] at h3
    cases h3
    have := hb.1 rfl
    rwa [h4, h5] at this
  simp only [List.mem_cons, List.not_mem_nil, or_false]
  rintro v (rfl | rfl) t (rfl | rfl) <;>
    exact key _ _ (by decide +kernel) (by decide +kernel) (by decide +kernel) (by decide +kernel) (by decide +kernel)

/-- Both vehicles of `farEnv` can serve both trips, so both are served, whatever the order and draws. -/
example (S : Settings) (hE : S.env = farEnv) (hf : S.fleet = [0, 1]) (hj : S.job = [0, 1]) (hF : Fair S) (hi : S.strategy.Tries)
    (hsz : S.neighborhood = none) (ho : S.onlyFeasible = true) (hn : 0 < S.randomized) (fuel : Nat) (rs : List Nat) (s : IterState)
    (e : insertionAlgorithm S none fuel (.initial h) = (.ok rs, s)) : (rs.flatMap (tripsOf s.heap.core)).Perm [0, 1] := by
  rw [← hj]
  refine C135_all_served (by rw [hE]; exact farEnv_ok) hF ⟨by rw [hf]; decide, by rw [hj]; decide⟩ hn hi ?_ (.inl ho) ?_ ?_ ?_ e
  · simp [neighborhoodSize, hsz]
  · intro t
    rw [hE]
    simp only [farEnv]
    split_ifs <;> rfl
  · simp [hf, hj]
  · rw [hE, hf, hj]
    exact far_alone

/-- A route with three trips is such a way. -/
theorem crowd_served : Served crowdEnv [0] crowdHeap.core 3 where
  wf := crowd_ok.2.1
  fleet := by decide +kernel
  proper := by
    refine ⟨(duties crowdHeap.core 3).tail.dropLast, by rw [crowd_driver]; decide +kernel, ?_⟩
    have : ∀ d ∈ (duties crowdHeap.core 3).tail.dropLast, ∃ t ∈ [0, 1, 2], d = pickDuty crowdEnv t ∨ d = dropDuty crowdEnv t := by decide +kernel
    intro d hd
    obtain ⟨t, -, h⟩ := this d hd
    exact ⟨t, h⟩
  detours := crowd_noShortcut
  times := ⟨_, crowd_feasible.timing⟩

/-- Three vehicles at 0 and three trips, of which the third cannot be reached in time. -/
def awaySettings : Settings := plainSettings awayEnv [0, 1, 2] [0, 1, 2] .intensive 1

def awayRun : Except Err (List Nat) × IterState := insertionAlgorithm awaySettings none 4 (.initial .empty)

/-- The result serves the first two trips and leaves the third out. -/
theorem awayRun_result : ∃ rs, awayRun.1 = .ok rs ∧ (rs.flatMap (tripsOf awayRun.2.heap.core)).Perm [0, 1] ∧
    ∃ r ∈ rs, tripsOf awayRun.2.heap.core r = [] := by
  have : (match awayRun.1 with
    | .ok rs => decide ((rs.flatMap (tripsOf awayRun.2.heap.core)).Perm [0, 1]) && rs.any fun r => decide (tripsOf awayRun.2.heap.core r = [])
    | .error _ => false) = true := by decide +kernel
  revert this
  cases awayRun.1 with
  | error e => intro h; cases h
  | ok rs =>
    intro h
    simp only [Bool.and_eq_true, decide_eq_true_eq, List.any_eq_true] at h
    exact ⟨rs, rfl, h.1, h.2⟩

/-- No planning of the three vehicles serves all three trips. -/
example (c : Core) (qs : List Nat) (hs : ∀ q ∈ qs, Served awayEnv [0, 1, 2] c q) : ¬ (qs.flatMap (tripsOf c)).Perm [0, 1, 2] := by
  intro hp
  obtain ⟨rs, e, hl, _⟩ := awayRun_result
  have e' : insertionAlgorithm awaySettings none 4 (.initial .empty) = (.ok rs, awayRun.2) := eq_of_fst (p := awayRun) e
  have := (C135_enough_vehicles (S := awaySettings) awayEnv_ok (plainSettings_fair _ _ _ _) ⟨by decide, by decide⟩ Nat.one_pos (by intro _ _ _ h; cases h) (by decide)
    (.inl rfl) (by intro t; simp only [awaySettings, plainSettings, awayEnv, demoEnv]; split <;> [rfl; (split <;> rfl)])
    (fun _ _ => rfl) (fun _ _ _ _ => rfl) (by decide) e').2 c qs hs (hp.nodup_iff.2 (by decide)) (fun t ht => hp.mem_iff.1 ht)
  have h1 := hp.length_eq
  have h2 := hl.length_eq
  rw [h1, h2] at this
  exact absurd this (by decide)

end Jinete
