import Verif.Spec.SetOrder
import Verif.Model.Columnar
import Verif.Props.Value
import Verif.Props.Timing

/-!
# C128: what a route answers depends on its itinerary only
-/

set_option autoImplicit false

namespace Jinete

variable {E : Env} {v w : Visit} {l m : List Visit}

theorem EqualVisit.symm (h : EqualVisit v w) : EqualVisit w v := ⟨h.pos.symm, h.request.symm, h.picks.symm, h.drops.symm⟩

theorem EqualTours.symm (h : EqualTours l m) : EqualTours m l := by
  have := List.Forall₂.flip h
  exact this.imp fun _ _ h => EqualVisit.symm h

theorem EqualVisit.serve_eq (h : EqualVisit v w) (t : ℚ) (p : Pos) : serve E t p v = serve E t p w := by
  have e1 : v.earliest E = w.earliest E := maxD_perm ((h.picks.map _).append (h.drops.map _))
  have e2 : v.loadTime E = w.loadTime E := maxD_perm ((h.picks.map _).append (h.drops.map _))
  simp only [serve, h.pos, h.request, e1, e2]

theorem EqualTours.timetable_eq (h : EqualTours l m) : ∀ (t : ℚ) (p : Pos), timetable E t p l = timetable E t p m := by
  induction h with
  | nil => intros; rfl
  | cons h1 _ ih => intro t p; simp only [timetable, h1.serve_eq, h1.pos, ih]

theorem EqualTours.vehicleTimetable_eq (h : EqualTours l m) (veh : Vehicle) : vehicleTimetable E veh l = vehicleTimetable E veh m :=
  h.timetable_eq _ _

theorem EqualTours.loads_eq (h : EqualTours l m) : ∀ q : ℚ, loads E q l = loads E q m := by
  induction h with
  | nil => intros; rfl
  | cons h1 _ ih =>
    intro q
    simp only [loads, tripsCapacity, (h1.picks.map _).sum_eq, (h1.drops.map _).sum_eq, ih]

theorem EqualTours.pos_eq (h : EqualTours l m) : l.map Visit.pos = m.map Visit.pos := by
  induction h with
  | nil => rfl
  | cons h1 _ ih => simp [h1.pos, ih]

theorem EqualTours.picks_perm (h : EqualTours l m) : (l.flatMap Visit.picks).Perm (m.flatMap Visit.picks) := by
  induction h with
  | nil => exact List.Perm.refl _
  | cons h1 _ ih => simpa using h1.picks.append ih

theorem EqualTours.getElem? (h : EqualTours l m) : ∀ {i : Nat} {v : Visit}, m[i]? = some v → ∃ w, l[i]? = some w ∧ EqualVisit w v := by
  induction h with
  | nil => intro i v hv; simp at hv
  | cons h1 _ ih =>
    intro i v hv
    cases i with
    | zero => simp only [List.getElem?_cons_zero, Option.some.injEq] at hv; subst hv; exact ⟨_, rfl, h1⟩
    | succ i => simpa using ih (by simpa using hv)

theorem EqualTours.feasible (h : EqualTours l m) {veh : Vehicle} (hf : FeasibleItinerary E veh l) : FeasibleItinerary E veh m where
  vehicle := by
    obtain ⟨a, b, c, d, e⟩ := hf.vehicle
    have et := h.vehicleTimetable_eq (E := E) veh
    refine ⟨?_, et ▸ b, ?_, et ▸ d, et ▸ e⟩
    · rw [← List.head?_map, ← h.pos_eq, List.head?_map]; exact a
    · rw [← List.getLast?_map, ← h.pos_eq, List.getLast?_map]; exact c
  trips := by
    intro i j v w x y q q' t hv hw hx hy hq hq' h1 h2
    obtain ⟨v', hv', s⟩ := h.getElem? hv
    obtain ⟨w', hw', s'⟩ := h.getElem? hw
    rw [← h.vehicleTimetable_eq] at hx hy
    rw [← h.loads_eq] at hq hq'
    exact hf.trips i j v' w' x y q q' t hv' hw' hx hy hq hq' (s.picks.mem_iff.2 h1) (s'.drops.mem_iff.2 h2)

theorem EqualTours.feasible_iff (h : EqualTours l m) (veh : Vehicle) : FeasibleItinerary E veh l ↔ FeasibleItinerary E veh m :=
  ⟨h.feasible, h.symm.feasible⟩

theorem EqualTours.dropStart_eq (h : EqualTours l m) : ∀ (tms : List Tm) (t : Nat), dropStart (l.zip tms) t = dropStart (m.zip tms) t := by
  induction h with
  | nil => intros; rfl
  | @cons v w l m h1 _ ih =>
    intro tms t
    cases tms with
    | nil => rfl
    | cons x tms =>
      have hd : decide (t ∈ v.drops) = decide (t ∈ w.drops) := by simp [h1.drops.mem_iff]
      have := ih tms t
      simp only [dropStart, List.zip_cons_cons, List.find?_cons, hd] at this ⊢
      cases decide (t ∈ w.drops) with
      | true => rfl
      | false => exact this

theorem EqualTours.rides_perm (h : EqualTours l m) (veh : Vehicle) : (rides E veh l).Perm (rides E veh m) := by
  unfold rides ridesOf
  rw [h.vehicleTimetable_eq veh]
  generalize vehicleTimetable E veh m = tms
  have hd := h.dropStart_eq tms
  generalize hF : dropStart (m.zip tms) = F
  have hF' : dropStart (l.zip tms) = F := by rw [← hF]; funext t; exact hd t
  rw [hF']
  clear hd hF hF'
  induction h generalizing tms with
  | nil => exact List.Perm.refl _
  | cons h1 _ ih =>
    cases tms with
    | nil => exact List.Perm.refl _
    | cons x tms => simpa using (h1.picks.map _).append (ih tms)

theorem EqualTours.routeValue_eq (h : EqualTours l m) (veh : Vehicle) (k : Objective) : routeValue E veh l k = routeValue E veh m k := by
  cases k with
  | dialARide => simp only [routeValue, h.picks_perm.length_eq, h.pos_eq]
  | taxiSharing => simp only [routeValue, (((h.rides_perm (E := E) veh).filter _).map _).sum_eq]
  | hashCode => simp only [routeValue, (((h.rides_perm (E := E) veh).filter _).map _).sum_eq]

theorem EqualTours.criterionValue_eq (h : EqualTours l m) (veh : Vehicle) (k : Criterion) :
    criterionValue E veh l k = criterionValue E veh m k := by
  have hr := h.rides_perm (E := E) veh
  cases k with
  | earliestLastDeparture => simp only [criterionValue, h.vehicleTimetable_eq]
  | shortestAverageDuration =>
    have hn : rides E veh l = [] ↔ rides E veh m = [] := by
      rw [← List.length_eq_zero_iff, ← List.length_eq_zero_iff, hr.length_eq]
    simp only [criterionValue, hn, hr.length_eq, (hr.map _).sum_eq]
  | shortestTime => simp only [criterionValue, tourDuration, h.vehicleTimetable_eq]
  | longestTime => simp only [criterionValue, tourDuration, h.vehicleTimetable_eq]
  | longestUtilTime => simp only [criterionValue, (h.picks_perm.map _).sum_eq]
  | hashCode => simp only [criterionValue, (hr.map _).sum_eq]

/-- **C128.** Two well formed routes, in whatever states and made of whatever objects, with agreeing memoised times and no memoised
verdicts, whose vehicles have the same data and whose itineraries are the same up to the order of the trips at each visit: they give
the same answers when asked whether they are feasible, for the score of any criterion and the value of any objective, and their stops
report the same times and loads. -/
theorem C128_only_the_itinerary_matters (hE : EnvOK E) (h h' : Heap) (r r' : Nat) (hs : Sound E h r) (hs' : Sound E h' r')
    (hn : NoVerdicts h r) (hn' : NoVerdicts h' r') (hv : E.vehicle (h.core.route r).vehicle = E.vehicle (h'.core.route r').vehicle)
    (hi : EqualTours (itinerary h.core r) (itinerary h'.core r')) :
    (routeFeasible E r h).1 = (routeFeasible E r' h').1 ∧
    (∀ k : Criterion, (k.scoring E r h).1 = (k.scoring E r' h').1) ∧
    (∀ k : Objective, (k.route E r h).1 = (k.route E r' h').1) ∧
    ∀ i s s' : Nat, (h.core.route r).stops[i]? = some s → (h'.core.route r').stops[i]? = some s' →
      (arrival E s h).1 = (arrival E s' h').1 ∧ (departure E s h).1 = (departure E s' h').1 ∧
      (capacity E s h).1 = (capacity E s' h').1 := by
  have hL := (cachesAgree_iff hs.1.toChained).1 hs.2
  have hL' := (cachesAgree_iff hs'.1.toChained).1 hs'.2
  have ev : effR E h r = effR E h' r' := by
    obtain ⟨b, _, e, hb, _⟩ := C18_feasible_iff_constraints hE h r hs.1 hs.2 hn
    obtain ⟨b', _, e', hb', _⟩ := C18_feasible_iff_constraints hE h' r' hs'.1 hs'.2 hn'
    obtain ⟨_, f, _⟩ := routeFeasible_evals hE hs.1 h rfl hL
    obtain ⟨_, f', _⟩ := routeFeasible_evals hE hs'.1 h' rfl hL'
    have k : effR E h r = b := by simpa using congrArg Prod.fst (f.symm.trans e)
    have k' : effR E h' r' = b' := by simpa using congrArg Prod.fst (f'.symm.trans e')
    rw [k, k', Bool.eq_iff_iff, hb, hb', hi.feasible_iff, hv]
  refine ⟨?_, fun k => ?_, fun k => ?_, fun i s s' hk hk' => ?_⟩
  · obtain ⟨_, f, _⟩ := routeFeasible_evals hE hs.1 h rfl hL
    obtain ⟨_, f', _⟩ := routeFeasible_evals hE hs'.1 h' rfl hL'
    rw [f, f']
    simp only [ev]
  · obtain ⟨_, f, _⟩ := hs.1.scoring_evals hE k h rfl hL
    obtain ⟨_, f', _⟩ := hs'.1.scoring_evals hE k h' rfl hL'
    rw [f, f']
    simp only [scoreOf, ev, hv, hi.criterionValue_eq]
  · obtain ⟨_, f, _⟩ := hs.1.routeValue_reads (E := E) k h rfl hL
    obtain ⟨_, f', _⟩ := hs'.1.routeValue_reads (E := E) k h' rfl hL'
    rw [f, f', hv, hi.routeValue_eq]
  · obtain ⟨pre, suf, e, hl⟩ := split_at hk
    obtain ⟨pre', suf', e', hl'⟩ := split_at hk'
    obtain ⟨t1, t3, _⟩ := hs.1.toChained.timetable_idx (E := E) hk
    obtain ⟨t1', t3', _⟩ := hs'.1.toChained.timetable_idx (E := E) hk'
    have et : tmAt E h.core s = tmAt E h'.core s' := by
      unfold routeTimetable at t1 t1'
      rw [hi.vehicleTimetable_eq, hv, t1'] at t1
      exact (Option.some.inj t1).symm
    have el : loadAt E h.core s = loadAt E h'.core s' := by
      unfold routeLoads at t3 t3'
      rw [hi.loads_eq, t3'] at t3
      exact (Option.some.inj t3).symm
    rw [hs.1.toChained.tmAt_eq e, hs'.1.toChained.tmAt_eq e'] at et
    rw [hs.1.toChained.loadAt_eq e, hs'.1.toChained.loadAt_eq e'] at el
    obtain ⟨_, a, _⟩ := hs.1.toChained.arrival_reads e h rfl hL
    obtain ⟨_, a', _⟩ := hs'.1.toChained.arrival_reads e' h' rfl hL'
    obtain ⟨_, d, _⟩ := hs.1.toChained.departure_reads e h rfl hL
    obtain ⟨_, d', _⟩ := hs'.1.toChained.departure_reads e' h' rfl hL'
    obtain ⟨_, q, _⟩ := hs.1.capacity_reads hE e h rfl hL
    obtain ⟨_, q', _⟩ := hs'.1.capacity_reads hE e' h' rfl hL'
    rw [a, a', d, d', q, q', et, el]
    exact ⟨rfl, rfl, rfl⟩

/-- **C128**, plannings: the value of a planning is that of any other one with the same vehicles and visits, whatever the orders of
the routes and of the trips at each visit. -/
theorem C128_plannings (h h' : Heap) (k : Objective) (routes routes' order : List Nat) (hs : ∀ r ∈ routes, Sound E h r)
    (hs' : ∀ r ∈ routes', Sound E h' r) (hp : order.Perm routes')
    (hi : List.Forall₂ (fun r r' => E.vehicle (h.core.route r).vehicle = E.vehicle (h'.core.route r').vehicle ∧
      EqualTours (itinerary h.core r) (itinerary h'.core r')) routes routes') :
    (k.planning E routes h).1 = (k.planning E order h').1 := by
  obtain ⟨_, e, _⟩ := C38_planning_value h k routes routes (List.Perm.refl _) hs
  obtain ⟨_, e', _⟩ := C38_planning_value h' k routes' order hp hs'
  rw [e, e']
  have : (routes.map (planOf E h.core)).map (fun x => routeValue E x.1 x.2 k) =
      (routes'.map (planOf E h'.core)).map fun x => routeValue E x.1 x.2 k := by
    clear e e' hs hs' hp
    induction hi with
    | nil => rfl
    | cons h1 _ ih => simp only [List.map_cons, ih, planOf, h1.1, h1.2.routeValue_eq]
  unfold planningValue
  rw [this]

/-- A route on which two planned trips, with the trips 0 and 1, share both stops; the sets are iterated in the given order. -/
def sharedHeap (l : List Nat) : Heap :=
  { Heap.empty with
    core := {
      stop := fun s => [⟨0, [0], none, [], [], none⟩, ⟨0, [2], some 0, l, [], none⟩, ⟨0, [8], some 1, [], l.reverse, none⟩,
        ⟨0, [0], some 2, [], [], none⟩].getD s ⟨0, [], none, [], [], none⟩
      nStop := 4
      pt := fun p => ⟨0, p, some 1, some 2⟩
      nPt := 2
      route := fun _ => ⟨0, [0, 1, 2, 3]⟩
      nRoute := 1 } }

/-- C128 on these routes, in both orders; the identifiers of the stops tell the orders apart. -/
example : (routeFeasible demoEnv 0 (sharedHeap [0, 1])).1 = (routeFeasible demoEnv 0 (sharedHeap [1, 0])).1 ∧
    (routeFeasible demoEnv 0 (sharedHeap [0, 1])).1 = .ok true ∧ (departure demoEnv 2 (sharedHeap [1, 0])).1 = .ok 29 ∧
    stopIdentifier (fun t => [Char.ofNat (48 + t)]) (sharedHeap [0, 1]).core 1 ≠
      stopIdentifier (fun t => [Char.ofNat (48 + t)]) (sharedHeap [1, 0]).core 1 := by
  refine ⟨?_, by decide +kernel, by decide +kernel, by decide +kernel⟩
  refine (C128_only_the_itinerary_matters demoEnv_ok (sharedHeap [0, 1]) (sharedHeap [1, 0]) 0 0 ⟨wfB_sound (by decide +kernel), agreeB_sound (by decide +kernel)⟩
    ⟨wfB_sound (by decide +kernel), agreeB_sound (by decide +kernel)⟩ ⟨rfl, fun _ _ => rfl, fun _ _ _ _ => rfl⟩
    ⟨rfl, fun _ _ => rfl, fun _ _ _ _ => rfl⟩ rfl ?_).1
  have k : ∀ v w : Visit, v.pos = w.pos → v.request = w.request → v.picks.isPerm w.picks = true → v.drops.isPerm w.drops = true →
      EqualVisit v w := fun v w h1 h2 h3 h4 => ⟨h1, h2, List.isPerm_iff.1 h3, List.isPerm_iff.1 h4⟩
  refine .cons (k _ _ ?_ ?_ ?_ ?_) (.cons (k _ _ ?_ ?_ ?_ ?_) (.cons (k _ _ ?_ ?_ ?_ ?_) (.cons (k _ _ ?_ ?_ ?_ ?_) .nil))) <;> decide +kernel

end Jinete
