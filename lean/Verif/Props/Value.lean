import Verif.Proofs.Values
import Verif.Props.Feasible
import Verif.Spec.Duties
import Mathlib.Tactic.Positivity

/-!
# C35 to C38, C47, C48: objectives, criteria, plannings and results
-/

set_option autoImplicit false

namespace Jinete

variable {E : Env}

/-! ## C35 -/

/-- **C35.** Whatever is passed to `objective.best` (results, plannings, routes, stops, planned trips, tuples, `None`),
as long as it has a value: the call succeeds and changes no attribute; it returns `None` if all arguments are `None`,
and otherwise the first argument whose value is largest in lexicographic order. -/
theorem C35_best_first_maximum (h : Heap) (k : Objective) (args : List (Option Optimizable)) (vs : List (List ℚ))
    (hv : List.Forall₂ (HasValue E h k) (args.filterMap id) vs) :
    ∃ b h', k.best E args h = (.ok b, h') ∧ h'.core = h.core ∧ (b = none ↔ args.filterMap id = []) ∧
      ∀ o, b = some o → ∃ v, FirstMax ((args.filterMap id).zip vs) (o, v) ∧ HasValue E h k o v := by
  obtain ⟨h', e, g⟩ := keyed_hasValue hv
  refine ⟨_, h', Py.bind_ok e, g.core, ?_, ?_⟩
  · rcases pick_spec .maximization ((args.filterMap id).zip vs) with ⟨hn, hp⟩ | ⟨b, hb, hp⟩
    · rw [hp]
      refine iff_of_true rfl ?_
      cases hl : args.filterMap id with
      | nil => rfl
      | cons x l =>
        rw [hl] at hv hn
        cases hv
        simp at hn
    · rw [hp]
      refine iff_of_false (by simp) ?_
      intro hn
      rw [hn] at hb
      exact absurd hb.before.1 (by simp)
  · intro o ho
    rcases pick_spec .maximization ((args.filterMap id).zip vs) with ⟨_, hp⟩ | ⟨b, hb, hp⟩
    · rw [hp] at ho; cases ho
    · rw [hp] at ho
      cases ho
      exact ⟨b.2, hb, List.forall₂_iff_zip.1 hv |>.2 hb.before.1⟩

theorem forall₂_perm {α β : Type} {R : α → β → Prop} {l l' : List α} (hp : l.Perm l') :
    ∀ {vs : List β}, List.Forall₂ R l vs → ∃ vs', List.Forall₂ R l' vs' ∧ (l.zip vs).Perm (l'.zip vs') := by
  induction hp with
  | nil => intro vs h; cases h; exact ⟨[], .nil, List.Perm.refl _⟩
  | cons x _ ih =>
    intro vs h
    cases h with
    | cons h1 h2 =>
      obtain ⟨vs', h3, h4⟩ := ih h2
      exact ⟨_, .cons h1 h3, h4.cons _⟩
  | swap x y l =>
    intro vs h
    cases h with
    | cons h1 h2 =>
      cases h2 with
      | cons h2 h3 => exact ⟨_, .cons h2 (.cons h1 h3), List.Perm.swap _ _ _⟩
  | trans _ _ ih1 ih2 =>
    intro vs h
    obtain ⟨vs1, h1, p1⟩ := ih1 h
    obtain ⟨vs2, h2, p2⟩ := ih2 h1
    exact ⟨vs2, h2, p1.trans p2⟩

/-- **C35, order of arguments.** Calling `best` with the same arguments in another order gives something of the same
value. -/
theorem C35_best_value_any_order (h : Heap) (k : Objective) (args args' : List (Option Optimizable)) (vs : List (List ℚ))
    (hv : List.Forall₂ (HasValue E h k) (args.filterMap id) vs) (hp : args.Perm args')
    (o o' : Optimizable) (h1 h2 : Heap) (e1 : k.best E args h = (.ok (some o), h1)) (e2 : k.best E args' h = (.ok (some o'), h2)) :
    ∃ v, HasValue E h k o v ∧ HasValue E h k o' v := by
  obtain ⟨vs', hv', hz⟩ := forall₂_perm (hp.filterMap id) hv
  obtain ⟨b, h1', f1, _, _, g1⟩ := C35_best_first_maximum h k args vs hv
  obtain ⟨b', h2', f2, _, _, g2⟩ := C35_best_first_maximum h k args' vs' hv'
  rw [e1] at f1
  rw [e2] at f2
  cases f1
  cases f2
  obtain ⟨v, m1, w1⟩ := g1 o rfl
  obtain ⟨v', m2, w2⟩ := g2 o' rfl
  have b1 := FirstBest.before (d := .maximization) m1
  have b2 := FirstBest.before (d := .maximization) m2
  have : v = v' := le_antisymm (b2.2 _ (hz.subset b1.1)) (b1.2 _ (hz.symm.subset b2.1))
  subst this
  exact ⟨v, w1, w2⟩

/-- A call with a `None`, a route and two tuples: the tuple that ties with the route comes later and loses. -/
example : ∃ vs, List.Forall₂ (HasValue demoEnv demoHeap .dialARide)
      ([none, some (.tuple [2, -20]), some (.route 2), some (.tuple [2, -16])].filterMap id) vs ∧
    (Objective.dialARide.best demoEnv [none, some (.tuple [2, -20]), some (.route 2), some (.tuple [2, -16])] demoHeap).1 =
      .ok (some (.route 2)) :=
  ⟨_, .cons (.tuple _) (.cons (.route demo_ok.2) (.cons (.tuple _) .nil)), by decide +kernel⟩

/-! ## C36 -/

/-- **C36.** For every criterion, list of routes and state in which all scores can be computed (`sorted` returns):
`sorted` returns the routes with their scores ordered best first, routes of equal score in their original order;
`nbest(n)` returns its first `n` elements for every `n`, and `best` its first element. -/
theorem C36_best_sorted_nbest_agree (h h' : Heap) (k : Criterion) (routes s : List Nat)
    (e : k.sorted E routes h = (.ok s, h')) :
    (∃ scored ranked : List (Nat × Score), keyed (k.scoring E) routes h = (.ok scored, h') ∧ scored.map Prod.fst = routes ∧
      StablySorted k.direction scored ranked ∧ ranked.map Prod.fst = s) ∧
    (∀ n, k.nbest E n routes h = (.ok (s.take n), h')) ∧ k.best E (routes.map some) h = (.ok s.head?, h') := by
  unfold Criterion.sorted at e
  cases hk : keyed (k.scoring E) routes h with
  | mk res h1 =>
    cases res with
    | error x => rw [Py.bind_error hk] at e; cases e
    | ok l =>
      rw [Py.bind_ok hk] at e
      cases e
      have hfst : ∀ (l0 : List Nat) (h0 h2 : Heap) (l1 : List (Nat × Score)),
          keyed (k.scoring E) l0 h0 = (.ok l1, h2) → l1.map Prod.fst = l0 := by
        intro l0
        induction l0 with
        | nil => intro h0 h2 l1 hh; cases hh; rfl
        | cons x l0 ih =>
          intro h0 h2 l1 hh
          unfold keyed at hh
          rw [Py.mapEach, Py.bind_assoc_run] at hh
          cases hx : k.scoring E x h0 with
          | mk res h3 =>
            cases res with
            | error y => rw [Py.bind_error hx] at hh; cases hh
            | ok q =>
              rw [Py.bind_ok hx, Py.pure_bind] at hh
              cases hr : Py.mapEach l0 (fun x => do let a ← k.scoring E x; pure (x, a)) h3 with
              | mk res h4 =>
                cases res with
                | error y => rw [Py.bind_error hr] at hh; cases hh
                | ok l2 =>
                  rw [Py.bind_ok hr] at hh
                  cases hh
                  rw [List.map_cons, ih _ _ _ hr]
      have hs := sortKeyed_spec k.direction l
      refine ⟨⟨l, sortKeyed k.direction.le l, rfl, hfst _ _ _ _ hk, hs, rfl⟩, ?_, ?_⟩
      · intro n
        unfold Criterion.nbest
        rw [Py.bind_ok hk]
        simp [Direction.nbest, Direction.sorted, List.map_take]
      · unfold Criterion.best bestOf
        rw [show (routes.map some).filterMap id = routes by simp [List.filterMap_map]]
        rw [Py.bind_ok hk]
        simp only [Py.pure_run, Direction.sorted, List.head?_map]
        rcases pick_spec k.direction l with ⟨hn, hp⟩ | ⟨b, hb, hp⟩
        · rw [hp, hn]; rfl
        · rw [hp, hb.head hs]; rfl

/-- Three routes of the demonstration: empty, one trip, two trips. -/
example : (Criterion.longestUtilTime.sorted demoEnv [0, 1, 2] demoHeap).1 = .ok [2, 1, 0] ∧
    (Criterion.shortestTime.sorted demoEnv [2, 1, 0, 1] demoHeap).1 = .ok [0, 1, 1, 2] ∧
    (Criterion.shortestTime.nbest demoEnv 2 [2, 1, 0, 1] demoHeap).1 = .ok [0, 1] := by decide +kernel

/-! ## C37 -/

/-- The route answers `True` when asked whether it is feasible in this state. -/
def SaysFeasible (E : Env) (h : Heap) (r : Nat) : Prop := (routeFeasible E r h).1 = .ok true

theorem saysFeasible_iff (hE : EnvOK E) {h : Heap} {r : Nat} (hs : Sound E h r) : SaysFeasible E h r ↔ effR E h r = true := by
  obtain ⟨h', e, _⟩ := routeFeasible_evals hE hs.1 h rfl ((cachesAgree_iff hs.1.toChained).1 hs.2)
  unfold SaysFeasible
  rw [e]
  simp

theorem Sound.grows {h h' : Heap} {r : Nat} (hs : Sound E h r) (g : GrowsV E h h') : Sound E h' r := by
  refine ⟨by rw [g.core]; exact hs.1, g.agree hs.1.toChained hs.2⟩

/-- Which of two values of a criterion is at least as good: the earlier last departure, the shorter mean ride, the
shorter route; the longer route, the longer distance with passengers, the larger HashCode score. -/
def AtLeastAsGood : Criterion → ℚ → ℚ → Prop
  | .earliestLastDeparture, a, b => a ≤ b
  | .shortestAverageDuration, a, b => a ≤ b
  | .shortestTime, a, b => a ≤ b
  | .longestTime, a, b => b ≤ a
  | .longestUtilTime, a, b => b ≤ a
  | .hashCode, a, b => b ≤ a

theorem score_before {k : Criterion} {c : Core} {r r' : Nat} {b b' : Bool}
    (hb : Before k.direction (scoreOf E c k r b) (scoreOf E c k r' b')) :
    (b' = true → b = true) ∧ (b = true → b' = true → AtLeastAsGood k
      (criterionValue E (E.vehicle (c.route r).vehicle) (itinerary c r) k)
      (criterionValue E (E.vehicle (c.route r').vehicle) (itinerary c r') k)) := by
  unfold scoreOf at hb
  cases k <;> cases b <;> cases b' <;>
    simp_all [Before, AtLeastAsGood, Criterion.direction, Criterion.worst, Score.fin, Score.inf, Score.ninf, WithBot.coe_le_coe, WithTop.coe_le_coe]

/-- **C37.** For each of the six criteria: if one of the given routes says it is feasible, `best` succeeds and returns
one of them that says so, before and after the call, and no other feasible one has a better value, where the value is
the criterion's measure of the itinerary. -/
theorem C37_best_is_feasible (hE : EnvOK E) (h : Heap) (k : Criterion) (args : List (Option Nat)) (r0 : Nat)
    (hs : ∀ r, some r ∈ args → Sound E h r) (h0 : some r0 ∈ args) (hf : SaysFeasible E h r0) :
    ∃ b h', k.best E args h = (.ok (some b), h') ∧ some b ∈ args ∧ SaysFeasible E h b ∧ SaysFeasible E h' b ∧
      ∀ r, some r ∈ args → SaysFeasible E h r → AtLeastAsGood k
        (criterionValue E (E.vehicle (h.core.route b).vehicle) (itinerary h.core b) k)
        (criterionValue E (E.vehicle (h.core.route r).vehicle) (itinerary h.core r) k) := by
  have hmem : ∀ r, r ∈ args.filterMap id ↔ some r ∈ args := by intro r; simp
  obtain ⟨h', e, g⟩ := scoring_keyed hE k (l := args.filterMap id) (fun r hr => hs r ((hmem r).1 hr))
  rcases pick_spec k.direction ((args.filterMap id).map fun r => (r, scoreOf E h.core k r (effR E h r))) with ⟨hn, _⟩ | ⟨b, hb, hp⟩
  · have := (hmem r0).2 h0
    rw [List.map_eq_nil_iff] at hn
    rw [hn] at this
    simp at this
  · obtain ⟨hb1, hb2⟩ := hb.before
    obtain ⟨rb, hrb, rfl⟩ := List.mem_map.1 hb1
    have hrb' := (hmem rb).1 hrb
    have key : ∀ r, some r ∈ args → Before k.direction (scoreOf E h.core k rb (effR E h rb)) (scoreOf E h.core k r (effR E h r)) :=
      fun r hr => hb2 (r, _) (List.mem_map.2 ⟨r, (hmem r).2 hr, rfl⟩)
    have hfb : effR E h rb = true := (score_before (key r0 h0)).1 ((saysFeasible_iff hE (hs r0 h0)).1 hf)
    refine ⟨rb, h', ?_, hrb', (saysFeasible_iff hE (hs rb hrb')).2 hfb, ?_, ?_⟩
    · unfold Criterion.best bestOf
      rw [Py.bind_ok e, hp]
      rfl
    · exact (saysFeasible_iff hE ((hs rb hrb').grows g)).2 (by rw [g.effR]; exact hfb)
    · intro r hr hfr
      exact (score_before (key r hr)).2 hfb ((saysFeasible_iff hE (hs r hr)).1 hfr)

/-- **C37 for `sorted`.** In the ordered list no infeasible route stands before a feasible one, and feasible routes are
ordered by the criterion's measure of their itineraries, best first. -/
theorem C37_sorted_feasible_first (hE : EnvOK E) (h : Heap) (k : Criterion) (routes : List Nat)
    (hs : ∀ r ∈ routes, Sound E h r) :
    ∃ s h', k.sorted E routes h = (.ok s, h') ∧ s.Perm routes ∧
      s.Pairwise fun a b => SaysFeasible E h b → SaysFeasible E h a ∧ AtLeastAsGood k
        (criterionValue E (E.vehicle (h.core.route a).vehicle) (itinerary h.core a) k)
        (criterionValue E (E.vehicle (h.core.route b).vehicle) (itinerary h.core b) k) := by
  obtain ⟨h', e, g⟩ := scoring_keyed hE k hs
  have hst := sortKeyed_spec k.direction (routes.map fun r => (r, scoreOf E h.core k r (effR E h r)))
  refine ⟨_, h', Py.bind_ok e, ?_, ?_⟩
  · have := hst.perm.map Prod.fst
    rw [List.map_map] at this
    simpa [Direction.sorted, Function.comp_def] using this
  · unfold Direction.sorted
    rw [List.pairwise_map]
    refine List.Pairwise.imp_of_mem ?_ hst.ordered
    intro a b ha hb hab
    obtain ⟨ra, hra, rfl⟩ := List.mem_map.1 (hst.perm.subset ha)
    obtain ⟨rb, hrb, rfl⟩ := List.mem_map.1 (hst.perm.subset hb)
    rw [saysFeasible_iff hE (hs ra hra), saysFeasible_iff hE (hs rb hrb)]
    exact fun hb => ⟨(score_before hab).1 hb, (score_before hab).2 ((score_before hab).1 hb) hb⟩

/-! ## C38 -/

/-- **C38.** The objective value of a planning whose routes are well formed with agreeing memoised times: computing it
succeeds, changes no attribute, and gives the component-wise sum over the routes of the value of their itineraries,
whatever the order in which the set of routes is iterated. -/
theorem C38_planning_value (h : Heap) (k : Objective) (routes order : List Nat) (hp : order.Perm routes)
    (hs : ∀ r ∈ routes, Sound E h r) :
    ∃ h', k.planning E order h = (.ok (planningValue E k (routes.map (planOf E h.core))), h') ∧ h'.core = h.core := by
  have hs' : ∀ r ∈ order, Sound E h r := fun r hr => hs r (hp.subset hr)
  obtain ⟨h', e, g⟩ := planningValue_reads k (fun r hr => (hs' r hr).1) h rfl (Sound.coh hs')
  refine ⟨h', ?_, g.core⟩
  rw [e]
  unfold planningValue
  rw [columnSums_perm ((hp.map (planOf E h.core)).map _)]

/-- **C38, Dial-a-Ride.** The value is the number of trips served and minus the total length of the tours. -/
theorem C38_dial_a_ride (h : Heap) (routes order : List Nat) (hp : order.Perm routes) (hs : ∀ r ∈ routes, Sound E h r) :
    ∃ h', Objective.dialARide.planning E order h =
      (.ok [((routes.map fun r => ((itinerary h.core r).flatMap Visit.picks).length).sum : ℚ),
        - (routes.map fun r => tourLength E (E.vehicle (h.core.route r).vehicle).origin.position
            ((itinerary h.core r).map Visit.pos)).sum], h') ∧ h'.core = h.core := by
  obtain ⟨h', e, hc⟩ := C38_planning_value h .dialARide routes order hp hs
  refine ⟨h', ?_, hc⟩
  rw [e]
  have e1 : (routes.map fun r => (((itinerary h.core r).flatMap Visit.picks).length : ℚ)).sum =
      ((routes.map fun r => ((itinerary h.core r).flatMap Visit.picks).length).sum : ℚ) := by
    clear e hs hp
    induction routes with
    | nil => simp
    | cons r l ih => rw [List.map_cons, List.map_cons, List.sum_cons, List.sum_cons, ih, Nat.cast_add]
  have e2 : (routes.map fun r => - tourLength E (E.vehicle (h.core.route r).vehicle).origin.position
      ((itinerary h.core r).map Visit.pos)).sum = - (routes.map fun r => tourLength E (E.vehicle (h.core.route r).vehicle).origin.position
            ((itinerary h.core r).map Visit.pos)).sum := by
    clear e hs hp e1
    induction routes with
    | nil => simp
    | cons r l ih => simp only [List.map_cons, List.sum_cons, ih]; ring
  simp only [planningValue, columnSums, Objective.dim, List.map_map, routeValue, planOf, Function.comp_def]
  simp only [List.range_succ, List.range_zero, List.nil_append, List.cons_append, List.map_cons, List.map_nil,
    List.getD_cons_zero, List.getD_cons_succ]
  rw [e2, ← e1]

/-- The demonstration routes as a planning. -/
theorem demo_sound : ∀ r ∈ [0, 1, 2], Sound demoEnv demoHeap r := by
  intro r hr
  simp only [List.mem_cons, List.not_mem_nil, or_false] at hr
  rcases hr with rfl | rfl | rfl
  · exact ⟨wfB_sound (by decide +kernel), agreeB_sound (by decide +kernel)⟩
  · exact ⟨wfB_sound (by decide +kernel), agreeB_sound (by decide +kernel)⟩
  · exact demo_ok.2

example : (Objective.dialARide.planning demoEnv [2, 0, 1] demoHeap).1 = .ok [3, -32] ∧
    (Objective.taxiSharing.planning demoEnv [2, 0, 1] demoHeap).1 = .ok [31] ∧
    (Objective.hashCode.planning demoEnv [2, 0, 1] demoHeap).1 = .ok [14] := by decide +kernel

/-! ## C47 -/

/-- The trips of the job that are served by one of the routes and have passengers. -/
def coveredTrips (E : Env) (c : Core) (jobTrips routes : List Nat) : List Nat :=
  jobTrips.filter fun t => decide ((E.trip t).capacity ≠ 0 ∧ ∃ r ∈ routes, t ∈ tripsOf c r)

theorem mem_completedTrips {c : Core} {routes : List Nat} {t : Nat} :
    t ∈ completedTrips E c routes ↔ (E.trip t).capacity ≠ 0 ∧ ∃ r ∈ routes, t ∈ tripsOf c r := by
  unfold completedTrips routeLoadedTrips tripsOf
  simp only [List.mem_dedup, List.mem_flatMap, List.mem_filter, picks_eq, Trip.empty, Bool.not_eq_true', decide_eq_false_iff_not]
  constructor
  · rintro ⟨r, hr, ht, h0⟩
    exact ⟨h0, r, hr, ht⟩
  · rintro ⟨h0, r, hr, ht⟩
    exact ⟨r, hr, ht, h0⟩

/-- **C47.** For a result whose routes serve only trips of the job, `coverage_rate` is the number of job trips that are
served and have passengers, divided by the number of job trips. It lies between 0 and 1, and is 1 exactly when every
trip of the job is served and has passengers. It changes nothing. -/
theorem C47_coverage_rate (h : Heap) (jobTrips routes : List Nat) (hn : jobTrips.Nodup) (hne : jobTrips ≠ [])
    (hsub : ∀ r ∈ routes, ∀ t ∈ tripsOf h.core r, t ∈ jobTrips) :
    ∃ q, coverageRate E jobTrips routes h = (.ok q, h) ∧
      q = ((coveredTrips E h.core jobTrips routes).length : ℚ) / jobTrips.length ∧ 0 ≤ q ∧ q ≤ 1 ∧
      (q = 1 ↔ ∀ t ∈ jobTrips, (E.trip t).capacity ≠ 0 ∧ ∃ r ∈ routes, t ∈ tripsOf h.core r) := by
  have hperm : (completedTrips E h.core routes).Perm (coveredTrips E h.core jobTrips routes) := by
    refine (List.perm_ext_iff_of_nodup (List.nodup_dedup _) (hn.filter _)).2 fun t => ?_
    have hm := mem_completedTrips (E := E) (c := h.core) (routes := routes) (t := t)
    unfold completedTrips at hm
    rw [hm]
    simp only [List.mem_filter, decide_eq_true_eq]
    exact ⟨fun hh => ⟨by obtain ⟨_, r, hr, ht⟩ := hh; exact hsub r hr t ht, hh⟩, fun hh => hh.2⟩
  have hlen : jobTrips.length ≠ 0 := by simpa using hne
  have hpos : (0 : ℚ) < jobTrips.length := by exact_mod_cast Nat.pos_of_ne_zero hlen
  have hle : (coveredTrips E h.core jobTrips routes).length ≤ jobTrips.length := List.length_filter_le _ _
  refine ⟨((coveredTrips E h.core jobTrips routes).length : ℚ) / jobTrips.length, ?_, rfl, ?_, ?_, ?_⟩
  · unfold coverageRate
    simp only [Py.read_bind]
    rw [if_neg hlen, hperm.length_eq]
    rfl
  · positivity
  · rw [div_le_one hpos]; exact_mod_cast hle
  · rw [div_eq_one_iff_eq (ne_of_gt hpos)]
    constructor
    · intro he t ht
      have he' : (coveredTrips E h.core jobTrips routes).length = jobTrips.length := by exact_mod_cast he
      have := List.length_filter_eq_length_iff.1 he' t ht
      simpa using this
    · intro hall
      have : coveredTrips E h.core jobTrips routes = jobTrips := List.filter_eq_self.2 fun t ht => by simpa using hall t ht
      rw [this]

/-- **C47, empty job.** `coverage_rate` raises exactly for a job without trips, and then `ZeroDivisionError`. -/
theorem C47_undefined_iff_no_trips (h : Heap) (jobTrips routes : List Nat) :
    (coverageRate E jobTrips routes h = (.error .zeroDivision, h) ↔ jobTrips = []) ∧
    (jobTrips ≠ [] → ∃ q, coverageRate E jobTrips routes h = (.ok q, h)) := by
  unfold coverageRate
  simp only [Py.read_bind]
  constructor
  · by_cases hj : jobTrips = []
    · subst hj; exact iff_of_true rfl rfl
    · rw [if_neg (by simpa using hj)]
      exact iff_of_false (by simp) hj
  · intro hj
    rw [if_neg (by simpa using hj)]
    exact ⟨_, rfl⟩

/-- Two of three job trips served. -/
example : (∀ r ∈ [2], ∀ t ∈ tripsOf demoHeap.core r, t ∈ [0, 1, 5]) ∧
    (coverageRate demoEnv [0, 1, 5] [2] demoHeap).1 = .ok (2 / 3) := by decide +kernel

/-! ## C48 -/

/-- The full claim C48: `optimize` returns the planning the algorithm produced. -/
def OptimizeReturns (E : Env) (k : Objective) : Prop :=
  ∀ (h : Heap) (routes : List Nat), (∀ r ∈ routes, Sound E h r) → ∃ h', optimizeWith E k routes h = (.ok routes, h')

/-- **C48 is false of the code.** `NaiveAlgorithm` returns the empty planning (jinete/algorithms/naive.py), and then
`optimize` raises `TypeError`: `Planning.feasible` reduces an empty sequence without an initial value. -/
theorem C48_empty_planning_raises (E : Env) (k : Objective) (h : Heap) :
    optimizeWith E k [] h = (.error .typeError, h) ∧ ¬ OptimizeReturns E k := by
  have h1 : ∀ h, optimizeWith E k [] h = (.error .typeError, h) := fun h => rfl
  refine ⟨h1 h, fun hc => ?_⟩
  obtain ⟨h', e⟩ := hc h [] (by simp)
  rw [h1] at e
  cases e

theorem planningFeasible_run (hE : EnvOK E) {h : Heap} {routes : List Nat} (hne : routes ≠ []) (hs : ∀ r ∈ routes, Sound E h r) :
    ∃ h', planningFeasible E routes h = (.ok (routes.all (effR E h)), h') ∧ GrowsV E h h' := by
  have := Evals.mapEach (E := E) (c := h.core) (L := allStops h.core routes) (l := routes) (k := routeFeasible E)
    (g := fun r h => effR E h r)
    (fun r hr => (routeFeasible_evals hE (hs r hr).1).mono fun s hs' => List.mem_flatMap.2 ⟨r, hr, hs'⟩)
    (fun r _ => stable_effR r)
  obtain ⟨h', e, g⟩ := this h rfl (Sound.coh hs)
  refine ⟨h', ?_, g⟩
  unfold planningFeasible
  rw [Py.bind_ok e]
  cases routes with
  | nil => exact absurd rfl hne
  | cons r l =>
    have h3 : ∀ (l : List Bool) (b : Bool), l.foldl (fun a b => a && b) b = (b && l.all id) := by
      intro l
      induction l with
      | nil => intro b; simp
      | cons x l ih => intro b; simp [ih, Bool.and_assoc]
    simp only [List.map_cons, h3, Py.pure_run, List.all_map, Function.comp_def, id, List.all_cons]

/-- **C48, non-empty plannings.** If the planning has at least one route and its routes are well formed with agreeing
memoised times, `optimize` returns it, and changes no attribute. Missing: the empty planning, for which the claim is
false. -/
theorem C48_optimize_returns_partial (hE : EnvOK E) (h : Heap) (k : Objective) (routes : List Nat) (hne : routes ≠ [])
    (hs : ∀ r ∈ routes, Sound E h r) :
    ∃ h', optimizeWith E k routes h = (.ok routes, h') ∧ h'.core = h.core := by
  obtain ⟨h1, e1, g1⟩ := planningFeasible_run hE hne hs
  have hs1 : ∀ r ∈ routes, Sound E h1 r := fun r hr => (hs r hr).grows g1
  obtain ⟨h2, e2, c2⟩ := C38_planning_value h1 k routes routes (List.Perm.refl _) hs1
  refine ⟨h2, ?_, c2.trans g1.core⟩
  unfold optimizeWith
  rw [Py.bind_ok e1, Py.bind_ok e2]
  rfl

/-- The verdict of a non-empty planning is the conjunction of the verdicts of its routes. -/
theorem C48_planning_feasible_iff (hE : EnvOK E) (h : Heap) (routes : List Nat) (hne : routes ≠ [])
    (hs : ∀ r ∈ routes, Sound E h r) :
    ∃ b h', planningFeasible E routes h = (.ok b, h') ∧ (b = true ↔ ∀ r ∈ routes, SaysFeasible E h r) := by
  obtain ⟨h', e, _⟩ := planningFeasible_run hE hne hs
  refine ⟨_, h', e, ?_⟩
  rw [List.all_eq_true]
  exact forall₂_congr fun r hr => (saysFeasible_iff hE (hs r hr)).symm

example : (optimizeWith demoEnv .dialARide [0, 2] demoHeap).1 = .ok [0, 2] := by decide +kernel

end Jinete
