import Verif.Proofs.Modify
import Verif.Proofs.Check
import Verif.Proofs.Bound
import Verif.Model.Strategy
import Verif.Model.Surface

/-!
# C06, C07, C08, C09: times and loads reported by the stops of a route
-/

set_option autoImplicit false

namespace Jinete

variable {E : Env}

/-- The four times a caller can ask a stop for. -/
inductive TimeQuery
  | arrival | starting | departure | waiting
  deriving DecidableEq

/-- Asking stop `s`. -/
def TimeQuery.ask (E : Env) : TimeQuery → Nat → M ℚ
  | .arrival, s => Jinete.arrival E s
  | .starting, s => Jinete.starting E s
  | .departure, s => Jinete.departure E s
  | .waiting, s => waitingTime E s

/-- The right answer, given the entry of the forward schedule. -/
def TimeQuery.answer : TimeQuery → Tm → ℚ
  | .arrival, x => x.arr
  | .starting, x => x.start
  | .departure, x => x.dep
  | .waiting, x => x.start - x.arr

theorem TimeQuery.reads {c : Core} {r : Nat} (hc : Chained c r) {pre suf : List Nat} {s : Nat}
    (e : (c.route r).stops = pre ++ s :: suf) (q : TimeQuery) :
    Reads E c (c.route r).stops (q.ask E s) (q.answer (tmRev E c s pre.reverse)) := by
  cases q
  · exact hc.arrival_reads e
  · exact hc.starting_reads e
  · exact hc.departure_reads e
  · exact hc.waitingTime_reads e

/-! ## C06 -/

/-- **C06.** On a chained route whose memoised values agree with its schedule, *any* sequence of time
queries to *any* stops of the route (given by index and identity) is answered with the entries of the
forward schedule `routeTimetable`; nothing raises, no attribute changes and the memoised values still
agree. -/
theorem C06_times_follow_schedule (h : Heap) (r : Nat) (hc : Chained h.core r) (ha : CachesAgree E h r)
    (qs : List (TimeQuery × Nat × Nat)) (hq : ∀ x ∈ qs, (h.core.route r).stops[x.2.1]? = some x.2.2) :
    ∃ answers h', Py.mapEach qs (fun x => x.1.ask E x.2.2) h = (.ok answers, h') ∧
      List.Forall₂ (fun x a => ∃ tm, (routeTimetable E h.core r)[x.2.1]? = some tm ∧ a = x.1.answer tm) qs answers ∧
      h'.core = h.core ∧ CachesAgree E h' r := by
  have hL := (cachesAgree_iff hc).1 ha
  let val : TimeQuery × Nat × Nat → ℚ := fun x =>
    x.1.answer (tmRev E h.core x.2.2 ((h.core.route r).stops.take x.2.1).reverse)
  have hsplit : ∀ x ∈ qs, (h.core.route r).stops =
      (h.core.route r).stops.take x.2.1 ++ x.2.2 :: (h.core.route r).stops.drop (x.2.1 + 1) ∧
      ((h.core.route r).stops.take x.2.1).length = x.2.1 := by
    intro x hx
    obtain ⟨pre, suf, e, hl⟩ := split_at (hq x hx)
    rw [e, ← hl]
    simp
  have hr : Reads E h.core (h.core.route r).stops (Py.mapEach qs fun x => x.1.ask E x.2.2) (qs.map val) :=
    Reads.mapEach fun x hx => x.1.reads hc (hsplit x hx).1
  obtain ⟨h', e, g⟩ := hr h rfl hL
  refine ⟨_, h', e, ?_, g.core, g.agree hc ha⟩
  rw [List.forall₂_map_right_iff, List.forall₂_same]
  intro x hx
  obtain ⟨e1, e2⟩ := hsplit x hx
  refine ⟨_, ?_, rfl⟩
  have := hc.timetable_at (E := E) e1
  rw [e2] at this
  exact this

/-! ## C07 -/

/-- The times reported by a stop, in one reading. -/
structure Report where
  arrival : ℚ
  starting : ℚ
  departure : ℚ
  waiting : ℚ
  deriving DecidableEq

/-- Ask a stop for all its times. -/
def report (E : Env) (s : Nat) : M Report := do
  let a ← arrival E s
  let st ← starting E s
  let d ← departure E s
  let w ← waitingTime E s
  pure ⟨a, st, d, w⟩

theorem report_reads {c : Core} {r : Nat} (hc : Chained c r) {pre suf : List Nat} {s : Nat}
    (e : (c.route r).stops = pre ++ s :: suf) :
    Reads E c (c.route r).stops (report E s)
      ⟨(tmRev E c s pre.reverse).arr, (tmRev E c s pre.reverse).start, (tmRev E c s pre.reverse).dep,
        (tmRev E c s pre.reverse).start - (tmRev E c s pre.reverse).arr⟩ :=
  (hc.arrival_reads e).bind ((hc.starting_reads e).bind ((hc.departure_reads e).bind
    ((hc.waitingTime_reads e).bind (Reads.pure _))))

theorem loadTime_nonneg (hE : EnvOK E) (v : Visit) : 0 ≤ v.loadTime E := by
  unfold Visit.loadTime
  by_cases hl : (v.picks.map fun t => (E.trip t).origin.duration) ++
      (v.drops.map fun t => (E.trip t).destination.duration) = []
  · rw [hl]; simp
  · have := maxD_mem (d := 0) hl
    simp only [List.mem_append, List.mem_map] at this
    rcases this with ⟨t, _, e⟩ | ⟨t, _, e⟩ <;> rw [← e]
    · exact hE.originDuration t
    · exact hE.destinationDuration t

theorem start_le_dep (hE : EnvOK E) (c : Core) (s : Nat) (anc : List Nat) :
    (tmRev E c s anc).start ≤ (tmRev E c s anc).dep := by
  have := loadTime_nonneg hE (visitOf c s)
  cases anc <;> simp only [tmRev, serve] <;> linarith

theorem prev_dep_le_arr (hE : EnvOK E) (c : Core) (s p : Nat) (anc : List Nat) :
    (tmRev E c p anc).dep ≤ (tmRev E c s (p :: anc)).arr := by
  have := hE.metric (c.stop p).position (visitOf c s).pos
  simp only [tmRev, serve]; linarith

/-- **C07.** With non-negative travel and loading times, on a chained route with agreeing memoised values
every stop reports `arrival ≤ starting ≤ departure`, starts after the opening of every trip it serves,
waits a non-negative time (the assertion in `waiting_time` passes), and the next stop arrives no earlier
than this one departs. -/
theorem C07_time_never_backwards (hE : EnvOK E) (h : Heap) (r : Nat) (hc : Chained h.core r)
    (ha : CachesAgree E h r) (k s : Nat) (hk : (h.core.route r).stops[k]? = some s) :
    ∃ rep h1, report E s h = (.ok rep, h1) ∧
      rep.arrival ≤ rep.starting ∧ rep.starting ≤ rep.departure ∧ 0 ≤ rep.waiting ∧
      rep.waiting = rep.starting - rep.arrival ∧
      (∀ p ∈ (h.core.stop s).pickups, (E.trip (h.core.pt p).trip).originEarliest ≤ rep.starting) ∧
      (∀ p ∈ (h.core.stop s).deliveries, (E.trip (h.core.pt p).trip).destinationEarliest E.metric ≤ rep.starting) ∧
      ∀ s', (h.core.route r).stops[k + 1]? = some s' →
        ∃ rep' h2, report E s' h1 = (.ok rep', h2) ∧ rep.departure ≤ rep'.arrival := by
  have hL := (cachesAgree_iff hc).1 ha
  obtain ⟨pre, suf, e, hl⟩ := split_at hk
  obtain ⟨h1, e1, g1⟩ := report_reads hc e h rfl hL
  have hearl := start_ge_earliest (E := E) h.core s pre.reverse
  refine ⟨_, h1, e1, start_ge_arr _ _ _, start_le_dep hE _ _ _, ?_, rfl, ?_, ?_, ?_⟩
  · have := start_ge_arr (E := E) h.core s pre.reverse
    simp only; linarith
  · intro p hp
    refine le_trans (le_maxD ?_) hearl
    exact List.mem_append_left _ (List.mem_map.2 ⟨p, hp, rfl⟩)
  · intro p hp
    refine le_trans (le_maxD ?_) hearl
    exact List.mem_append_right _ (List.mem_map.2 ⟨p, hp, rfl⟩)
  · intro s' hk'
    have e' : ∃ suf', suf = s' :: suf' := by
      rw [e, ← hl] at hk'
      cases suf with
      | nil => simp at hk'
      | cons x suf' => exact ⟨suf', by simpa using hk'⟩
    obtain ⟨suf', rfl⟩ := e'
    have e2 : (h.core.route r).stops = (pre ++ [s]) ++ s' :: suf' := by simp [e]
    obtain ⟨h2, e3, _⟩ := report_reads hc e2 h1 g1.core (fun x hx => g1.coh (hL x hx))
    refine ⟨_, h2, e3, ?_⟩
    simp only [List.reverse_append, List.reverse_cons, List.reverse_nil, List.nil_append, List.cons_append]
    exact prev_dep_le_arr hE _ _ _ _

/-! ## C08 -/

/-- The trips on board after visit number `k` of an itinerary: picked up at visits `0..k`, not dropped at
visits `0..k`. -/
def onBoard (l : List Visit) (k : Nat) : List Nat :=
  ((l.take (k + 1)).flatMap Visit.picks).filter fun t => !((l.take (k + 1)).flatMap Visit.drops).contains t

/-- **C08.** On a well formed route the capacity reported at a stop is the total capacity of the trips on
board after it, which is not negative (the assertion in `capacity` passes), and nobody is on board after
the last stop. -/
theorem C08_load_is_on_board (hE : EnvOK E) (h : Heap) (r : Nat) (hw : WellFormed h.core r)
    (ha : CachesAgree E h r) (k s : Nat) (hk : (h.core.route r).stops[k]? = some s) :
    ∃ q h', capacity E s h = (.ok q, h') ∧
      q = ((onBoard (itinerary h.core r) k).map fun t => (E.trip t).capacity).sum ∧ 0 ≤ q ∧
      (k + 1 = (h.core.route r).stops.length → onBoard (itinerary h.core r) k = [] ∧ q = 0) := by
  have hL := (cachesAgree_iff hw.toChained).1 ha
  obtain ⟨pre, suf, e, hl⟩ := split_at hk
  obtain ⟨h1, e1, _⟩ := hw.capacity_reads hE e h rfl hL
  have ei : itinerary h.core r = (pre ++ [s]).map (visitOf h.core) ++ suf.map (visitOf h.core) := by
    simp [itinerary, e]
  have etake : (itinerary h.core r).take (k + 1) = (pre ++ [s]).map (visitOf h.core) := by
    rw [ei, List.take_append_of_le_length (by simp [hl])]
    exact List.take_of_length_le (by simp [hl])
  have hi := hw.itinOK
  have hq : loadRev E h.core s pre.reverse = tripsCapacity E (onBoard (itinerary h.core r) k) := by
    unfold onBoard
    rw [etake, ← loadAfter_chain]
    rw [ei] at hi
    exact hi.load_prefix
  refine ⟨_, h1, e1, hq, hw.load_nonneg hE e, ?_⟩
  intro hlast
  have hob : onBoard (itinerary h.core r) k = [] := by
    have htk : (itinerary h.core r).take (k + 1) = itinerary h.core r :=
      List.take_of_length_le (by simp [itinerary, hlast])
    unfold onBoard
    rw [htk, List.filter_eq_nil_iff]
    intro t ht
    obtain ⟨v, hv, htv⟩ := List.mem_flatMap.1 ht
    obtain ⟨a, b, eab⟩ := List.append_of_mem hv
    have := hi.pickBefore a v b eab t htv
    rw [eab]
    simp only [Bool.not_eq_true, Bool.not_eq_false', List.contains_iff_mem, List.flatMap_append, List.flatMap_cons,
      List.mem_append]
    exact .inr (.inr this)
  exact ⟨hob, by rw [hq, hob]; rfl⟩

/-! ## C09 -/

/-- The full claim C09: after assigning `starting_time` of a stop of a chained route, that stop starts at
the largest of the assigned value, its arrival and its opening time, and every stop of the route reports
the times of the new schedule. -/
def SetterPropagates : Prop :=
  ∀ (E : Env) (h : Heap) (r k s : Nat) (v : ℚ), Chained h.core r → CachesAgree E h r →
    (h.core.route r).stops[k]? = some s →
    ∀ (j s' : Nat) (x : Tm), (h.core.route r).stops[j]? = some s' →
      (routeTimetable E (setStarting s v h).2.core r)[j]? = some x →
      (departure E s' (setStarting s v h).2).1 = .ok x.dep

/-- A vehicle at the origin, a metric on the line; no trips used. -/
def lineEnv : Env where
  metric := fun a b => manhattan a b
  trip := fun _ => { origin := { position := [0] }, destination := { position := [0] } }
  vehicle := fun _ => { origin := { position := [0] } }

/-- A route of `lineEnv` without trips, after its last stop has been asked for its departure time. -/
def readRoute : Heap := (departure lineEnv 1 (newRoute lineEnv 0 Heap.empty).2).2

/-- C09 as stated fails: the departure of the later stop, already cached, is not recomputed. -/
theorem C09_not_propagated : ¬ SetterPropagates := by
  intro hp
  have := hp lineEnv readRoute 0 0 0 10 (chainedB_sound (by decide +kernel)) (agreeB_sound (by decide +kernel))
    (by decide +kernel) 1 1 ⟨10, 10, 10⟩ (by decide +kernel) (by decide +kernel)
  revert this
  decide +kernel

theorem setStarting_core (s : Nat) (v : ℚ) (h : Heap) :
    (setStarting s v h).2.core = (h.setStop s { h.core.stop s with start := some v }).core := by
  simp [setStarting]

theorem setStart_route (s : Nat) (v : ℚ) (h : Heap) : (setStarting s v h).2.core.route = h.core.route := by
  rw [setStarting_core]; rfl

theorem setStart_chained {s : Nat} {v : ℚ} {h : Heap} {r : Nat} (hc : Chained h.core r) :
    Chained (setStarting s v h).2.core r := by
  have hp : ∀ x, ((setStarting s v h).2.core.stop x).previous = (h.core.stop x).previous ∧
      ((setStarting s v h).2.core.stop x).vehicle = (h.core.stop x).vehicle := by
    intro x
    rw [setStarting_core]
    by_cases hx : x = s <;> simp [Heap.setStop, Function.update, hx]
  constructor
  · rw [setStart_route]; exact hc.nodup
  · rw [setStart_route]; intro x hx; rw [setStarting_core]; exact hc.alloc x hx
  · rw [setStart_route]; exact hc.linked.congr fun x _ => (hp x).1
  · rw [setStart_route]; intro x hx; rw [(hp x).2]; exact hc.vehicle x hx

/-- **C09 (partial).** The strongest true form: assigning `starting_time` changes only that attribute of
that stop; the stop itself then starts at `max(v, opening, arrival)` where the arrival is the one of the
old schedule; and once the later stops are flushed as well (as the insertion strategy does after
assigning), every memoised value agrees with the new schedule, so by C06 all times are recomputed.
Missing from the full claim: without that flush later stops keep their old times
(`C09_not_propagated`). -/
theorem C09_setter_partial (h : Heap) (r k s : Nat) (v : ℚ) (hc : Chained h.core r) (ha : CachesAgree E h r)
    (hk : (h.core.route r).stops[k]? = some s) :
    (setStarting s v h).1 = .ok () ∧
    (setStarting s v h).2.core.stop = Function.update h.core.stop s { h.core.stop s with start := some v } ∧
    (∃ x, (routeTimetable E h.core r)[k]? = some x ∧
      (starting E s (setStarting s v h).2).1 =
        .ok (max (max v ((visitOf h.core s).earliest E)) x.arr)) ∧
    CachesAgree E (flushStops (setStarting s v h).2 ((h.core.route r).stops.drop (k + 1))) r := by
  obtain ⟨pre, suf, e, hl⟩ := split_at hk
  have hL := (cachesAgree_iff hc).1 ha
  have hc' := setStart_chained (s := s) (v := v) hc
  have hne : ∀ x ∈ pre, x ≠ s := by
    intro x hx hxs
    have := hc.nodup; rw [e] at this
    subst hxs
    exact (List.disjoint_of_nodup_append this) hx (by simp)
  have hsame : ∀ x, x ≠ s → SameVisit h.core (setStarting s v h).2.core x := by
    intro x hx
    rw [setStarting_core]
    constructor <;> simp [visitOf, Heap.setStop, Function.update, hx]
  have hcache : ∀ x, x ≠ s → (setStarting s v h).2.arr x = h.arr x ∧ (setStarting s v h).2.dep x = h.dep x ∧
      (setStarting s v h).2.cap x = h.cap x := by
    intro x hx
    simp [setStarting, flushStop_eq, Heap.setStop, hx]
  have hcs : CohAt E (setStarting s v h).2 s :=
    cohAt_none (by simp [setStarting, flushStop_eq]) (by simp [setStarting, flushStop_eq])
      (by simp [setStarting, flushStop_eq])
  -- stops before `s` are not affected
  have hpre : ∀ x ∈ pre, CohAt E (setStarting s v h).2 x := by
    intro x hx
    obtain ⟨p1, p2, rfl⟩ := List.append_of_mem hx
    have e1 : (h.core.route r).stops = p1 ++ x :: (p2 ++ s :: suf) := by simp [e]
    refine (hL x (by rw [e1]; simp)).congr (hc.anc e1) ?_ ?_ ?_ ?_ ?_
    · exact hc'.anc (by rw [setStart_route]; exact e1)
    · intro y hy
      refine hsame y (hne y ?_)
      simp only [List.mem_cons, List.mem_reverse] at hy
      simp only [List.mem_append, List.mem_cons]
      tauto
    all_goals left
    · exact (hcache x (hne x hx)).1
    · exact (hcache x (hne x hx)).2.1
    · exact (hcache x (hne x hx)).2.2
  refine ⟨rfl, by rw [setStarting_core]; rfl, ?_, ?_⟩
  · refine ⟨tmRev E h.core s pre.reverse, by rw [← hl]; exact hc.timetable_at e, ?_⟩
    have hc'e : ((setStarting s v h).2.core.route r).stops = pre ++ s :: suf := by rw [setStart_route]; exact e
    have hr : Reads E (setStarting s v h).2.core (pre ++ [s]) (starting E s)
        (tmRev E (setStarting s v h).2.core s pre.reverse).start := by
      refine Jinete.starting_reads (hc'.anc hc'e) ?_ (hc'.len hc'e)
      intro x hx
      simp only [List.mem_cons, List.mem_reverse, List.mem_append] at hx ⊢
      simp only [List.not_mem_nil, or_false]
      tauto
    obtain ⟨h2, e2, _⟩ := hr (setStarting s v h).2 rfl (by
      intro x hx
      rcases List.mem_append.1 hx with hx | hx
      · exact hpre x hx
      · rw [List.mem_singleton.1 hx]; exact hcs)
    rw [e2]
    have hvis : visitOf (setStarting s v h).2.core s = { visitOf h.core s with request := some v } := by
      rw [setStarting_core]; simp [visitOf, Heap.setStop]
    have hveh : ((setStarting s v h).2.core.stop s).vehicle = (h.core.stop s).vehicle := by
      rw [setStarting_core]; simp [Heap.setStop]
    have key : (tmRev E (setStarting s v h).2.core s pre.reverse).start =
        max (max v ((visitOf h.core s).earliest E)) (tmRev E h.core s pre.reverse).arr := by
      rcases List.eq_nil_or_concat pre with rfl | ⟨pre', p, rfl⟩
      · simp only [List.reverse_nil, tmRev, serve, hvis, hveh, Visit.earliest, Option.getD_some]
      · simp only [List.concat_eq_append, List.reverse_append, List.reverse_cons, List.reverse_nil, List.nil_append,
          List.cons_append, tmRev, serve, hvis, Visit.earliest, Option.getD_some]
        rw [tmRev_congr (c := h.core) (c' := (setStarting s v h).2.core), (hsame p (hne p (by simp))).position]
        intro x hx
        refine hsame x (hne x ?_)
        simp only [List.mem_cons, List.mem_reverse] at hx
        simp only [List.concat_eq_append, List.mem_append, List.mem_singleton]
        tauto
    rw [key]
  · have hc2 : Chained (flushStops (setStarting s v h).2 ((h.core.route r).stops.drop (k + 1))).core r := by
      rw [flushStops_core]; exact hc'
    rw [cachesAgree_iff hc2, flushStops_core, setStart_route, e]
    have edrop : (pre ++ s :: suf).drop (k + 1) = suf := by rw [← hl]; simp
    rw [edrop]
    intro x hx
    by_cases hx2 : x ∈ suf
    · exact flushed_cohAt hx2
    · have hx3 : CohAt E (setStarting s v h).2 x := by
        simp only [List.mem_append, List.mem_cons, hx2, or_false] at hx
        rcases hx with hx | rfl
        · exact hpre x hx
        · exact hcs
      obtain ⟨a, b, eab⟩ := List.append_of_mem hx
      have hanc : Anc (setStarting s v h).2.core x a.reverse := hc'.anc (by rw [setStart_route, e]; exact eab)
      refine hx3.congr (anc := a.reverse) hanc (by rw [flushStops_core]; exact hanc) ?_ ?_ ?_ ?_
      · intro y _; rw [flushStops_core]; exact ⟨rfl, rfl⟩
      · left; simp [flushStops_arr, hx2]
      · left; simp [flushStops_dep, hx2]
      · left; simp [flushStops_cap, hx2]

/-! ## A concrete route meeting the hypotheses -/

/-- Two trips on the line; the second one opens late. -/
def demoEnv : Env where
  metric := fun a b => manhattan a b
  trip := fun t => if t = 0 then
      { origin := { position := [2], latest := .fin 100, duration := 1 }, destination := { position := [8], latest := .fin 100 } }
    else
      { origin := { position := [4], earliest := 20, latest := .fin 100 }, destination := { position := [6], latest := .fin 100, duration := 2 } }
  vehicle := fun _ => { origin := { position := [0] }, capacity := 2 }

/-- The route 0 → pick 0 → pick 1 → drop 1 → drop 0 → 0, built by the insertion strategy, with the times
computed during construction still memoised. Returns the last route built. -/
def demoBuild : M Nat := do
  let r ← newRoute demoEnv 0
  let rs ← compute demoEnv true r [0] 0 1
  let r1 ← Py.index rs 0
  let rs ← compute demoEnv true r1 [1] 1 2
  Py.index rs 0

/-- The heap after `demoBuild`. -/
def demoHeap : Heap := (demoBuild Heap.empty).2

/-- The route built by `demoBuild` is number 2 and is well formed with agreeing memoised values, so it
meets the hypotheses of C06 to C09. -/
theorem demo_ok : (demoBuild Heap.empty).1 = .ok 2 ∧ WellFormed demoHeap.core 2 ∧ CachesAgree demoEnv demoHeap 2 :=
  ⟨by decide +kernel, wfB_sound (by decide +kernel), agreeB_sound (by decide +kernel)⟩

/-- Its schedule has genuine waiting (stop 2) and loading (stops 1 and 3). -/
example : (routeTimetable demoEnv demoHeap.core 2).map (fun x => (x.arr, x.start, x.dep)) =
    [(0, 0, 0), (2, 2, 3), (5, 20, 20), (22, 22, 24), (26, 26, 26), (34, 34, 34)] := by decide +kernel

/-- and two trips on board after its third stop. -/
example : onBoard (itinerary demoHeap.core 2) 2 = [0, 1] ∧ routeLoads demoEnv demoHeap.core 2 = [0, 1, 2, 1, 0, 0] := by
  decide +kernel

end Jinete
