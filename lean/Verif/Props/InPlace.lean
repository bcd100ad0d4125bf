import Verif.Props.Reallocation
import Verif.Props.OneShift
import Verif.Props.Whole

/-!
# C114, C115: local search without copying
-/

set_option autoImplicit false

namespace Jinete

variable {E : Env}

/-- With the copy, the strategy works in place on the copies. -/
theorem improveWith_eq (order : List Nat → List Nat) (step : List Nat → M (List Nat)) (rs : List Nat) :
    improveWith E order step rs = deepcopyRoutes rs >>= fun l => improveInPlace E step (order l) := rfl

/-- The route keeps its vehicle, its stops, whom it serves there, and the times asked for at all stops but the first. -/
structure KeptBut1 (E : Env) (h h' : Heap) (r : Nat) : Prop where
  sound : Sound E h' r
  vehicle : (h'.core.route r).vehicle = (h.core.route r).vehicle
  stops : (h'.core.route r).stops = (h.core.route r).stops
  duties : duties h'.core r = duties h.core r
  later : (itinerary h'.core r).tail = (itinerary h.core r).tail
  value : ∀ k, routeValue E (planOf E h'.core r).1 (planOf E h'.core r).2 k = routeValue E (planOf E h.core r).1 (planOf E h.core r).2 k

theorem SameT.later {R : Nat → Prop} {c c' : Core} (a : SameT E R c c') {q : Nat} (hq : R q) :
    (itinerary c' q).tail = (itinerary c q).tail := by
  unfold itinerary
  rw [a.route q hq, ← List.map_tail, ← List.map_tail]
  refine List.map_congr_left fun s hs => ?_
  have hm := List.mem_of_mem_tail hs
  have e := a.stop q hq s hm
  have e1 := a.start q hq s hs
  have hp := a.pt q hq s hm
  unfold visitOf
  rw [Visit.mk.injEq]
  refine ⟨by rw [e], e1, ?_, ?_⟩
  · rw [show (c'.stop s).pickups = (c.stop s).pickups by rw [e]]
    exact List.map_congr_left fun p h => by rw [hp p (List.mem_append_left _ h)]
  · rw [show (c'.stop s).deliveries = (c.stop s).deliveries by rw [e]]
    exact List.map_congr_left fun p h => by rw [hp p (List.mem_append_right _ h)]

theorem improveInPlace_run {md : Mode} (hE : EnvOK E) {R2 : Nat → Prop} {h : Heap} {rs l : List Nat}
    {step : List Nat → M (List Nat)} {h1 h2 : Heap} (e1 : Py.forEach rs (checkRoute E) h = (.ok (), h1)) (e2 : step rs h1 = (.ok l, h2))
    (i2 : Inv E md R2 h2) (hl : ∀ q ∈ l, R2 q) : ∃ h', improveInPlace E step rs h = (.ok l, h') ∧ GrowsV E h2 h' := by
  obtain ⟨h3, e3, g3⟩ := checkRoutes_run hE i2 hl
  refine ⟨h3, ?_, g3⟩
  unfold improveInPlace
  rw [Py.bind_ok e1, Py.bind_ok e2, Py.bind_ok e3]
  rfl

/-! ## C114 -/

/-- **C114, reallocation.** Without the copy, for every planning of sound routes of different vehicles with at most one trip
per stop, reallocation succeeds. Every route the planning had is still sound, and keeps its vehicle, stops, trips, value and
all times asked for except at its first stop. The planning either holds the very routes it held, or one trip was moved
from a route to another, both replaced by new objects, and the objective strictly improved; it employs the same vehicles and
serves the same trips, each once. -/
theorem C114_reallocation_in_place {k : Objective} (hE : EnvOK E) {h : Heap} {rs : List Nat} (o : OnePerVehicle E h rs)
    (hs : ∀ r ∈ rs, SingleVisits (duties h.core r)) {draw : Nat → Nat → Option (List (Nat × Nat))} (hdr : GoodDraws draw) :
    ∃ l h', improveInPlace E (reallocation E k draw) rs h = (.ok l, h') ∧ (∀ r ∈ rs, KeptBut1 E h h' r) ∧
      OnePerVehicle E h' l ∧ SameWork h.core rs h'.core l ∧ (∀ q ∈ l, SingleVisits (duties h'.core q)) ∧
      (∀ q ∈ l, q ∈ rs ∨ h.core.nRoute ≤ q) ∧
      (l = rs ∨ (∃ o d t i j, Reallocated E h.core rs h'.core l o d t i j) ∧
          planningValue E k (rs.map (planOf E h.core)) < planningValue E k (l.map (planOf E h'.core))) := by
  have inv := o.inv
  obtain ⟨h1, e1, g1⟩ := checkRoutes_run hE inv (l := rs) fun r hr => hr
  have hds : ∀ o ∈ rs, ∀ d ∈ rs, o ≠ d → ∀ t ∈ tripsOf h1.core o, t ∉ tripsOf h1.core d := by
    rw [g1.core]
    intro a ha b hb hne t h2 h3
    have hn := o.trips
    rw [List.nodup_flatMap] at hn
    have hpw := hn.2
    have : Std.Symm (Function.onFun List.Disjoint (tripsOf h.core)) := ⟨fun a b hab => List.Disjoint.symm hab⟩
    exact (hpw.forall ha hb hne) h2 h3
  have hs1 : ∀ r ∈ rs, SingleVisits (duties h1.core r) := by rw [g1.core]; exact hs
  obtain ⟨f, h2, l, e2, al, bm, hl⟩ := reallocation_run (k := k) (md := .any) hE (fun h => nomatch h) (inv.growsV g1) (fun r hr => hr) hs1 hds hdr
  have res := bm.result (inv.growsV g1) (fun r hr => hr) (by rw [g1.core]; exact o.vehicles) hs1 al hl
  obtain ⟨h', e, g⟩ := improveInPlace_run hE e1 (e2 draw fun _ _ _ => rfl) al.inv res.mem
  have hc1 := g1.core
  have hc2 := g.core
  have i3 := al.inv.growsV g
  have hm := res.mem
  have hw := res.work
  have hsg := res.single
  have hout := res.outcome
  rw [hc1, ← hc2] at hw hout
  rw [← hc2] at hsg
  have st : SameT E (· ∈ rs) h.core h'.core := by
    rw [hc2, ← hc1]
    exact al.same.subset fun q hq => .inl hq
  refine ⟨l, h', e, fun r hr => ⟨i3.sound (.inl hr), by rw [st.route r hr], by rw [st.route r hr], st.duties hr, st.later hr,
    fun k => ?_⟩, ⟨fun q hq => i3.sound (hm q hq), hw.vehicles.nodup_iff.2 o.vehicles, hw.trips.nodup_iff.2 o.trips⟩, hw, hsg, ?_, ?_⟩
  · exact st.value hr (inv.ok.wf r hr) k
  · intro q hq
    rcases hm q hq with h0 | h0
    · exact .inl h0
    · exact .inr (by rw [← hc1]; exact h0.1)
  · rcases hout with h0 | ⟨h0, h3⟩
    · exact .inl h0
    · exact .inr ⟨h3, planningValue_lt hw h0⟩

/-- **C114, two-opt.** Without the copy, for every planning of sound routes of different vehicles, two-opt succeeds and leaves
all routes the planning had alone, also those it replaces. Each route of the planning is one it had or a new object; it
belongs to the vehicle of a former route, serves its trips, and is worth at least as much. Every vehicle keeps a route. -/
theorem C114_two_opt_in_place {k : Objective} (hE : EnvOK E) {h : Heap} {rs : List Nat} (o : OnePerVehicle E h rs) :
    ∃ l h', improveInPlace E (twoOpt E k) rs h = (.ok l, h') ∧ LeftAlone E h h' rs ∧
      (∀ q ∈ l, Sound E h' q ∧ (q ∈ rs ∨ h.core.nRoute ≤ q) ∧ ∃ r ∈ rs, (h'.core.route q).vehicle = (h.core.route r).vehicle ∧
        (tripsOf h'.core q).Perm (tripsOf h.core r) ∧
        routeValue E (planOf E h.core r).1 (planOf E h.core r).2 k ≤ routeValue E (planOf E h'.core q).1 (planOf E h'.core q).2 k) ∧
      ∀ r ∈ rs, ∃ q ∈ l, (h'.core.route q).vehicle = (h.core.route r).vehicle := by
  have inv := o.inv
  obtain ⟨h1, e1, g1⟩ := checkRoutes_run hE inv (l := rs) fun r hr => hr
  obtain ⟨l, h2, e2, i2, s2, nd, hu, hfr, hf, hall⟩ := twoOpt_run (k := k) hE (inv.growsV g1) (rs := rs) (fun r hr => hr)
    (by rw [g1.core]; exact o.vehicles)
  obtain ⟨h', e, g⟩ := improveInPlace_run hE e1 e2 i2 hu
  rw [g1.core] at s2 hf hfr hall
  rw [← g.core] at s2 hf hall
  have i3 := i2.growsV g
  refine ⟨l, h', e, fun r hr => ⟨i3.sound (.inl hr), by rw [s2.route r hr], s2.itinerary hr⟩, fun q hq => ⟨i3.sound (hu q hq), hfr q hq, ?_⟩, hall⟩
  cases hf q hq with
  | kept hr =>
    refine ⟨q, hr, by rw [s2.route q hr], ?_, ?_⟩
    · unfold tripsOf; rw [s2.itinerary hr]
    · unfold planOf; rw [s2.route q hr, s2.itinerary hr]
  | better hr hx =>
    rename_i r
    refine ⟨r, hr, hx.vehicle, ?_, le_of_lt hx.value⟩
    obtain ⟨i, j, _, _, h3, h4⟩ := hx.shape
    unfold tripsOf
    rw [h4]
    exact (reversed_perm j h3).flatMap_right _

/-- Two-opt without the copy: route 4 is replaced and left as it was. -/
example : (improveInPlace zigzagEnv (twoOpt zigzagEnv .dialARide) [4] zigzag4).1 = .ok [5, 6] ∧
    tripsOf (improveInPlace zigzagEnv (twoOpt zigzagEnv .dialARide) [4] zigzag4).2.core 4 = [0, 1, 2, 3] ∧
    LeftAlone zigzagEnv zigzag4 (improveInPlace zigzagEnv (twoOpt zigzagEnv .dialARide) [4] zigzag4).2 [4] := by
  refine ⟨by decide +kernel, by decide +kernel, ?_⟩
  obtain ⟨l, h', e, h1, _⟩ := C114_two_opt_in_place (k := .dialARide) zigzagEnv_ok zigzag_one
  rw [e]
  exact h1

/-- Reallocation without the copy moves trip 0 from route 1 to a new route of the other vehicle; the hypotheses of
`C114_reallocation_in_place` hold. -/
example : (improveInPlace swapEnv (reallocation swapEnv .dialARide allPairs) [1, 2] swap2).1 = .ok [3, 4] ∧
    ∃ l h', improveInPlace swapEnv (reallocation swapEnv .dialARide allPairs) [1, 2] swap2 = (.ok l, h') ∧ OnePerVehicle swapEnv h' l ∧
      SameWork swap2.core [1, 2] h'.core l ∧ ∀ r ∈ [1, 2], KeptBut1 swapEnv swap2 h' r := by
  refine ⟨by decide +kernel, ?_⟩
  obtain ⟨l, h', e, h1, h2, h3, _⟩ := C114_reallocation_in_place (k := .dialARide) swapEnv_ok swap_one swap_single allPairs_good
  exact ⟨l, h', e, h2, h3, h1⟩

/-- The problem of `flipEnv` with a second vehicle, which starts where trip 2 does. -/
def stayEnv : Env := { flipEnv with vehicle := fun v => { origin := { position := [if v = 0 then 0 else 14] }, capacity := 3 } }

/-- Route 2 of vehicle 0 serves trips 1 and 0, route 4 of vehicle 1 trip 2. -/
def stay4 : Heap :=
  (compute stayEnv true 3 [2] 0 1 (newRoute stayEnv 1 (compute stayEnv true 1 [1] 0 1 (compute stayEnv true 0 [0] 0 1 (newRoute stayEnv 0 .empty).2).2).2).2).2

/-- **C114, the exception is needed.** The candidates for the destination share its first stop. Reallocation without the copy
finds no improvement here, but route 2, which is still in the planning, leaves the depot at another time than before. -/
theorem C114_depot_departure_changes : ∃ h', improveInPlace stayEnv (reallocation stayEnv .dialARide allPairs) [2, 4] stay4 = (.ok [2, 4], h') ∧
    (routeTimetable stayEnv stay4.core 2).head?.map Tm.dep = some 100 ∧ (routeTimetable stayEnv h'.core 2).head?.map Tm.dep = some 90 :=
  ⟨(improveInPlace stayEnv (reallocation stayEnv .dialARide allPairs) [2, 4] stay4).2, eq_of_fst (by decide +kernel), by decide +kernel, by decide +kernel⟩

/-- **C114, one-shift differs.** Without the copy one-shift changes the route of the given result itself: it serves its trips
in another order afterwards. -/
theorem C114_one_shift_changes : ∃ h', improveInPlace hasteEnv (oneShift hasteEnv .dialARide) [4] haste4 = (.ok [4], h') ∧
    tripsOf haste4.core 4 = [0, 1, 2, 3] ∧ tripsOf h'.core 4 = [1, 0, 3, 2] :=
  ⟨(improveInPlace hasteEnv (oneShift hasteEnv .dialARide) [4] haste4).2, eq_of_fst (by decide +kernel), by decide +kernel, by decide +kernel⟩

/-! ## C115 -/

section Loop

variable {σ R : Type}

theorem bestResult_same {value : R → Py σ (List ℚ)} {b x : R} {s s' : σ} (e : bestResult value (some b) b s = (.ok x, s')) : x = b := by
  unfold bestResult at e
  obtain ⟨o, s1, e1, e⟩ := Py.ok_of_bind e
  unfold bestOf at e1
  obtain ⟨l, s2, e2, e1⟩ := Py.ok_of_bind e1
  cases e1
  simp only [keyed, List.filterMap_cons, id, List.filterMap_nil, Py.mapEach] at e2
  obtain ⟨p, s3, e3, e2⟩ := Py.ok_of_bind e2
  obtain ⟨v, s4, e4, e3⟩ := Py.ok_of_bind e3
  cases e3
  obtain ⟨l', s5, e5, e2⟩ := Py.ok_of_bind e2
  cases e2
  obtain ⟨p', s6, e6, e5⟩ := Py.ok_of_bind e5
  obtain ⟨v', s7, e7, e6⟩ := Py.ok_of_bind e6
  cases e6
  obtain ⟨l'', s8, e8, e5⟩ := Py.ok_of_bind e5
  cases e5
  cases e8
  simp only [Direction.pick, pickMax, List.foldl_cons, List.foldl_nil, Py.unwrap] at e
  split at e <;> · cases e; rfl

/-- **C115.** If every pass that returns yields the very result it was given, the local search never returns, whatever the
strategy, the objective, the initial result, the state and the positive threshold: for no number of rounds. -/
theorem C115_never_returns [DecidableEq R] {improve : R → Py σ R} {value : R → Py σ (List ℚ)} {threshold : Nat} (ht : 0 < threshold)
    (hsame : ∀ b s c s', improve b s = (.ok c, s') → c = b) (fuel : Nat) (b : R) (s : σ) :
    ∃ e s', localSearch improve value threshold fuel b 0 s = (.error e, s') := by
  induction fuel generalizing b s with
  | zero => exact ⟨_, _, rfl⟩
  | succ n ih =>
    rw [localSearch, if_pos ht]
    rcases e1 : improve b s with ⟨er | c, s1⟩
    · exact ⟨er, s1, by rw [Py.bind_error e1]⟩
    · obtain rfl := hsame b s c s1 e1
      rw [Py.bind_ok e1]
      rcases e2 : bestResult value (some c) c s1 with ⟨er | x, s2⟩
      · exact ⟨er, s2, by rw [Py.bind_error e2]⟩
      · obtain rfl := bestResult_same e2
        rw [Py.bind_ok e2, if_pos rfl]
        exact ih x s2

end Loop

/-- **C115, strategies that work in place.** -/
theorem C115_in_place_never_returns (k : Objective) (step : List Nat → M (List Nat)) {threshold : Nat} (ht : 0 < threshold) (fuel : Nat)
    (s : Heap × List Nat) : ∃ e s', localSearchInPlace E k step threshold fuel s = (.error e, s') :=
  C115_never_returns ht (fun _ _ _ _ _ => rfl) fuel () s

theorem heldValue_run {k : Objective} {h : Heap} {rs : List Nat} (o : OnePerVehicle E h rs)
    (hs : ∀ r ∈ rs, SingleVisits (duties h.core r)) : ∃ h' v, heldValue E k () (h, rs) = (.ok v, (h', rs)) ∧ OnePerVehicle E h' rs ∧
      ∀ r ∈ rs, SingleVisits (duties h'.core r) := by
  obtain ⟨h', e, g⟩ := planningValue_reads (E := E) k (fun r hr => (o.sound r hr).1) h rfl (Sound.coh o.sound)
  have e' : resultValue E k rs h = (.ok _, h') := e
  have i := o.inv.growsV g.toV
  refine ⟨h', planningValue E k (rs.map (planOf E h.core)), by unfold heldValue; simp only [e'], ⟨fun r hr => i.sound hr, ?_, ?_⟩, ?_⟩
  · rw [g.core]; exact o.vehicles
  · rw [g.core]; exact o.trips
  · rw [g.core]; exact hs

/-- **C115, reallocation in place runs forever.** On every planning of sound routes of different vehicles with at most one trip
per stop no pass raises an exception either: whatever the number of rounds allowed, they are all used up. -/
theorem C115_reallocation_runs_forever {k : Objective} (hE : EnvOK E) {draw : Nat → Nat → Option (List (Nat × Nat))} (hdr : GoodDraws draw)
    {threshold : Nat} (ht : 0 < threshold) (fuel : Nat) {h : Heap} {rs : List Nat} (o : OnePerVehicle E h rs)
    (hs : ∀ r ∈ rs, SingleVisits (duties h.core r)) :
    ∃ s', localSearchInPlace E k (reallocation E k draw) threshold fuel (h, rs) = (.error .outOfFuel, s') := by
  induction fuel generalizing h rs with
  | zero => exact ⟨_, rfl⟩
  | succ n ih =>
    obtain ⟨l, h1, e1, _, o1, _, s1, _⟩ := C114_reallocation_in_place (k := k) hE o hs hdr
    have p1 : inPlacePass E (reallocation E k draw) () (h, rs) = (.ok (), (h1, l)) := by
      unfold inPlacePass
      rw [e1]
    obtain ⟨h2, v1, e2, o2, s2⟩ := heldValue_run (k := k) o1 s1
    obtain ⟨h3, v2, e3, o3, s3⟩ := heldValue_run (k := k) o2 s2
    have p2 : bestResult (heldValue E k) (some ()) () (h1, l) = (.ok (), (h3, l)) := by
      simp only [bestResult, bestOf, keyed, List.filterMap_cons, id, List.filterMap_nil, Py.mapEach, Py.bind_run, e2, e3,
        Py.pure_run, Py.pure_run', Direction.pick, pickMax, List.foldl_cons, List.foldl_nil, Py.unwrap]
    obtain ⟨s', e⟩ := ih o3 s3
    refine ⟨s', ?_⟩
    unfold localSearchInPlace at e ⊢
    rw [localSearch, if_pos ht, Py.bind_ok p1, Py.bind_ok p2, if_pos rfl]
    exact e

/-- The search in place does not end in three rounds, though nothing changes after the first. -/
example : (localSearchInPlace swapEnv .dialARide (reallocation swapEnv .dialARide allPairs) 1 3 (swap2, [1, 2])).1 = .error .outOfFuel ∧
    ∀ fuel, ∃ s', localSearchInPlace swapEnv .dialARide (reallocation swapEnv .dialARide allPairs) 1 fuel (swap2, [1, 2]) =
      (.error .outOfFuel, s') :=
  ⟨by decide +kernel, fun fuel => C115_reallocation_runs_forever swapEnv_ok allPairs_good (by decide) fuel swap_one swap_single⟩

end Jinete
