import Verif.Proofs.OneShift
import Verif.Props.Reading

/-!
# C43, C44, C73: one-shift
-/

set_option autoImplicit false

namespace Jinete

variable {E : Env}

/-- What a pass of one-shift that returns has done. -/
structure OneShiftResult (E : Env) (k : Objective) (h : Heap) (rs l : List Nat) (h' : Heap) : Prop where
  copies : l.Perm (rs.map (· + h.core.nRoute))
  alone : SameCore (· ∈ rs) h.core h'.core
  each : ∀ r ∈ rs, OneShifted E k h.double.core (r + h.core.nRoute) h'.core (h'.rfeas (r + h.core.nRoute)) ∧
    (h'.core.route (r + h.core.nRoute)).vehicle = (h.core.route r).vehicle ∧
    itinerary h.double.core (r + h.core.nRoute) = itinerary h.core r

theorem improve_oneShift {k : Objective} {h h' : Heap} {rs l : List Nat} (o : OnePerVehicle E h rs)
    {order : List Nat → List Nat} (ho : ∀ l, (order l).Perm l)
    (e : improveWith E order (oneShift E k) rs h = (.ok l, h')) : OneShiftResult E k h rs l h' := by
  have e0 : deepcopyRoutes rs h = (.ok (rs.map (· + h.core.nRoute)), h.double) := rfl
  unfold improveWith at e
  rw [Py.bind_ok e0] at e
  obtain ⟨u1, h1, e1, e⟩ := Py.ok_of_bind e
  obtain ⟨l2, h2, e2, e⟩ := Py.ok_of_bind e
  obtain ⟨u3, h3, e3, e⟩ := Py.ok_of_bind e
  cases e
  obtain ⟨u4, h4, e4, e5⟩ := Py.ok_of_bind e2
  cases e5
  have s1 := (Silent.forEach (Silent.checkRoute E) _).ok e1
  have s3 := (Silent.forEach (Silent.checkRoute E) _).ok e3
  have hp := ho (rs.map (· + h.core.nRoute))
  have hwf : ∀ r ∈ rs, WellFormed h.core r := fun r hr => (o.sound r hr).1
  have hcore : ∀ r ∈ rs, (h.double.core.route (r + h.core.nRoute)).vehicle = (h.core.route r).vehicle ∧
      itinerary h.double.core (r + h.core.nRoute) = itinerary h.core r := fun r hr =>
    ⟨by rw [double_route (hwf r hr)]; rfl, double_itinerary (hwf r hr)⟩
  obtain ⟨a, b, v⟩ := oneShift_run (E := E) (k := k) _ (by
    intro q hq
    obtain ⟨r, hr, rfl⟩ := List.mem_map.1 (hp.mem_iff.1 hq)
    rw [s1.core]
    exact double_wf (hwf r hr)) (by
    rw [s1.core]
    refine (hp.map _).nodup_iff.2 ?_
    rw [List.map_map]
    have := List.map_congr_left (l := rs) (f := (fun r => (h.double.core.route r).vehicle) ∘ (· + h.core.nRoute))
      (g := fun r => (h.core.route r).vehicle) fun r hr => (hcore r hr).1
    rw [this]
    exact o.vehicles) e4
  refine ⟨hp, ?_, ?_⟩
  · have sd : SameCore (· ∈ rs) h.core h.double.core := ((double_below h).keeps hwf).core
    rw [s3.core]
    refine sd.trans ((SameCore.of_eq s1.core).trans (b.subset ?_))
    intro q hq r' hr'
    obtain ⟨r, hr, rfl⟩ := List.mem_map.1 (hp.mem_iff.1 hr')
    rw [s1.core]
    have hq' := (hwf q hq).exists_
    refine ⟨by omega, ?_⟩
    intro s hs hs'
    rw [sd.route q hq] at hs
    rw [double_stops (hwf r hr)] at hs'
    obtain ⟨s', _, rfl⟩ := List.mem_map.1 hs'
    have := (hwf q hq).alloc _ hs
    omega
  · intro r hr
    have hm : r + h.core.nRoute ∈ order (rs.map (· + h.core.nRoute)) := hp.mem_iff.2 (List.mem_map.2 ⟨r, hr, rfl⟩)
    have z := a _ hm
    rw [s1.core] at z
    refine ⟨?_, ?_, (hcore r hr).2⟩
    · rw [s3.core]
      refine ⟨z.wf, z.vehicle, z.stops, z.itinerary, ?_⟩
      rcases z.outcome with c | ⟨c, d⟩
      · exact .inl c
      · exact .inr ⟨s3.routeVerdict _ _ c, d⟩
    · rw [s3.core, z.vehicle, (hcore r hr).1]

/-! ## C73 -/

/-- **C73.** Whenever one-shift returns: its routes are the copies, one per original route; each copy is well formed,
belongs to the vehicle of its original and makes the same visits in some order, every trip being picked up before it is
dropped; vehicles and trips of the planning are the same, each once; the originals are as before. With the Dial-a-Ride
objective the value of no route and hence of the planning decreased. -/
theorem C73_one_shift_keeps_trips {k : Objective} {h h' : Heap} {rs l : List Nat} (o : OnePerVehicle E h rs)
    {order : List Nat → List Nat} (ho : ∀ l, (order l).Perm l)
    (e : improveWith E order (oneShift E k) rs h = (.ok l, h')) :
    l.Perm (rs.map (· + h.core.nRoute)) ∧
    (∀ r ∈ rs, WellFormed h'.core r ∧ h'.core.route r = h.core.route r ∧ itinerary h'.core r = itinerary h.core r) ∧
    (∀ r ∈ rs, WellFormed h'.core (r + h.core.nRoute) ∧
      (h'.core.route (r + h.core.nRoute)).vehicle = (h.core.route r).vehicle ∧
      (itinerary h'.core (r + h.core.nRoute)).Perm (itinerary h.core r) ∧
      PicksFirst (itinerary h'.core (r + h.core.nRoute))) ∧
    SameWork h.core rs h'.core l ∧ (l.map fun q => (h'.core.route q).vehicle).Nodup ∧ (l.flatMap (tripsOf h'.core)).Nodup ∧
    (k = .dialARide → (∀ r ∈ rs, routeValue E (planOf E h.core r).1 (planOf E h.core r).2 k ≤
        routeValue E (planOf E h'.core (r + h.core.nRoute)).1 (planOf E h'.core (r + h.core.nRoute)).2 k) ∧
      planningValue E k (rs.map (planOf E h.core)) ≤ planningValue E k (l.map (planOf E h'.core))) := by
  have t := improve_oneShift o ho e
  have hwf : ∀ r ∈ rs, WellFormed h.core r := fun r hr => (o.sound r hr).1
  have hit : ∀ r ∈ rs, (itinerary h'.core (r + h.core.nRoute)).Perm (itinerary h.core r) := fun r hr => by
    have := (t.each r hr).1.itinerary
    rw [(t.each r hr).2.2] at this
    exact this
  have hvl : (l.map fun q => (h'.core.route q).vehicle).Perm (rs.map fun r => (h.core.route r).vehicle) := by
    refine (t.copies.map _).trans (List.Perm.of_eq ?_)
    rw [List.map_map]
    exact List.map_congr_left fun r hr => (t.each r hr).2.1
  have htl : (l.flatMap (tripsOf h'.core)).Perm (rs.flatMap (tripsOf h.core)) := by
    refine (t.copies.flatMap_right _).trans ?_
    rw [List.flatMap_map]
    exact List.Perm.flatMap_left _ fun r hr => (hit r hr).flatMap_right _
  have hval : k = .dialARide → ∀ r ∈ rs, routeValue E (planOf E h.core r).1 (planOf E h.core r).2 k ≤
      routeValue E (planOf E h'.core (r + h.core.nRoute)).1 (planOf E h'.core (r + h.core.nRoute)).2 k := by
    intro hk r hr
    obtain ⟨a, b, c⟩ := t.each r hr
    unfold planOf
    rw [b]
    rcases a.outcome with h0 | ⟨_, h0⟩
    · rw [h0, c]
    · have := h0 hk
      rw [c, b] at this
      rw [a.vehicle] at b
      rw [b] at this
      exact le_of_lt this
  refine ⟨t.copies, fun r hr => ⟨t.alone.wf hr (hwf r hr), t.alone.route r hr, t.alone.itinerary hr⟩,
    fun r hr => ⟨(t.each r hr).1.wf, (t.each r hr).2.1, hit r hr, (t.each r hr).1.wf.picksFirst⟩,
    ⟨hvl, htl⟩, hvl.nodup_iff.2 o.vehicles, htl.nodup_iff.2 o.trips, fun hk => ⟨hval hk, ?_⟩⟩
  rw [planningValue_perm (t.copies.map _), List.map_map]
  exact planningValue_mono fun r hr => hval hk r hr

/-! ## C43 -/

/-- C43 as stated: one-shift applied to feasible routes yields feasible routes. -/
def OneShiftKeepsFeasible (E : Env) (k : Objective) : Prop :=
  ∀ (h h' : Heap) (rs l : List Nat) (order : List Nat → List Nat), OnePerVehicle E h rs → (∀ l, (order l).Perm l) →
    (∀ r ∈ rs, FeasibleItinerary E (planOf E h.core r).1 (planOf E h.core r).2) →
    improveWith E order (oneShift E k) rs h = (.ok l, h') →
    ∀ q ∈ l, FeasibleItinerary E (planOf E h'.core q).1 (planOf E h'.core q).2

/-- **C43, the part that holds.** Every route of the result either makes the visits of the original route of its vehicle
in the same order, and then it is feasible if the original is, or the verdict memoised for it is True, and with the
Dial-a-Ride objective its value is strictly larger. So a route whose memoised verdict is not True was not changed.
Missing: the verdict is memoised at the first flip and never again computed, and it is computed from stale times
(`C43_infeasible_result`). -/
theorem C43_one_shift_feasible_partial {k : Objective} {h h' : Heap} {rs l : List Nat} (o : OnePerVehicle E h rs)
    {order : List Nat → List Nat} (ho : ∀ l, (order l).Perm l)
    (e : improveWith E order (oneShift E k) rs h = (.ok l, h')) :
    ∀ q ∈ l, ∃ r ∈ rs, (planOf E h'.core q).1 = (planOf E h.core r).1 ∧
      ((planOf E h'.core q = planOf E h.core r ∧ (FeasibleItinerary E (planOf E h.core r).1 (planOf E h.core r).2 →
        FeasibleItinerary E (planOf E h'.core q).1 (planOf E h'.core q).2)) ∨
      (h'.rfeas q = some true ∧ (k = .dialARide → routeValue E (planOf E h.core r).1 (planOf E h.core r).2 k <
        routeValue E (planOf E h'.core q).1 (planOf E h'.core q).2 k))) := by
  have t := improve_oneShift o ho e
  intro q hq
  obtain ⟨r, hr, rfl⟩ := List.mem_map.1 (t.copies.mem_iff.1 hq)
  obtain ⟨a, b, c⟩ := t.each r hr
  have hv : (planOf E h'.core (r + h.core.nRoute)).1 = (planOf E h.core r).1 := by unfold planOf; rw [b]
  refine ⟨r, hr, hv, ?_⟩
  rcases a.outcome with h0 | ⟨h1, h0⟩
  · have : planOf E h'.core (r + h.core.nRoute) = planOf E h.core r := by unfold planOf; rw [b, h0, c]
    exact .inl ⟨this, by rw [this]; exact id⟩
  · refine .inr ⟨h1, fun hk => ?_⟩
    have := h0 hk
    rw [← a.vehicle, b, c] at this
    unfold planOf
    rw [b]
    exact this

/-- Four trips to 20 from 6, 3, 12 and 9. The third must be picked up by time 18, the fourth takes 10 to board. -/
def hasteEnv : Env where
  metric := manhattan
  trip := fun t =>
    { origin :=
        { position := [[6, 3, 12, 9].getD t 0]
          latest := .fin ([100, 100, 18, 100].getD t 0)
          duration := if t = 3 then 10 else 0 }
      destination := { position := [20], latest := .fin 1000 } }
  vehicle := fun _ => { origin := { position := [0] }, capacity := 10 }

theorem hasteEnv_ok : EnvOK hasteEnv where
  metric := manhattan_nonneg
  originDuration t := by show (0 : ℚ) ≤ if t = 3 then 10 else 0; split <;> norm_num
  destinationDuration _ := le_refl _
  capacity _ := by show (0 : ℚ) ≤ 1; norm_num

def haste0 : Heap := (newRoute hasteEnv 0 .empty).2
def haste1 : Heap := (compute hasteEnv true 0 [0] 0 1 haste0).2
def haste2 : Heap := (compute hasteEnv true 1 [1] 1 2 haste1).2
def haste3 : Heap := (compute hasteEnv true 2 [2] 2 3 haste2).2
/-- Route 4 picks the trips up in the order 0, 1, 2, 3, at 6, 3, 12 and 9; it reaches 12 exactly at time 18. -/
def haste4 : Heap := (compute hasteEnv true 3 [3] 3 4 haste3).2
/-- What one-shift leaves behind. -/
def haste5 : Heap := (improveWith hasteEnv id (oneShift hasteEnv .dialARide) [4] haste4).2

theorem haste_reach : Reach hasteEnv haste4 := by
  have r0 : Reach hasteEnv haste0 := .newRoute (v := 0) (r := 0) .empty (eq_of_fst (by decide +kernel))
  have r1 : Reach hasteEnv haste1 := .compute (rs := [1]) r0 (by decide +kernel) (by decide) (by decide +kernel) (by decide +kernel)
    (eq_of_fst (by decide +kernel))
  have r2 : Reach hasteEnv haste2 := .compute (rs := [2]) r1 (by decide +kernel) (by decide) (by decide +kernel) (by decide +kernel)
    (eq_of_fst (by decide +kernel))
  have r3 : Reach hasteEnv haste3 := .compute (rs := [3]) r2 (by decide +kernel) (by decide) (by decide +kernel) (by decide +kernel)
    (eq_of_fst (by decide +kernel))
  exact .compute (rs := [4]) r3 (by decide +kernel) (by decide) (by decide +kernel) (by decide +kernel)
    (eq_of_fst (by decide +kernel))

theorem haste_one : OnePerVehicle hasteEnv haste4 [4] where
  sound r hr := by
    have := (haste_reach.inv (md := .any) hasteEnv_ok (fun h => nomatch h)).sound (q := 4) (by show 4 < haste4.core.nRoute; decide +kernel)
    simp at hr
    rw [hr]; exact this
  vehicles := by decide +kernel
  trips := by decide +kernel

theorem haste_run : improveWith hasteEnv id (oneShift hasteEnv .dialARide) [4] haste4 = (.ok [9], haste5) :=
  eq_of_fst (by decide +kernel)

/-- The example meets the hypotheses of `C73_one_shift_keeps_trips` and `C43_one_shift_feasible_partial`; one-shift
changed the order of the pickups. -/
example : improveWith hasteEnv id (oneShift hasteEnv .dialARide) [4] haste4 = (.ok [9], haste5) ∧
    tripsOf haste4.core 4 = [0, 1, 2, 3] ∧ tripsOf haste5.core 9 = [1, 0, 3, 2] ∧ haste5.rfeas 9 = some true ∧
    planningValue hasteEnv .dialARide ([4].map (planOf hasteEnv haste4.core)) <
      planningValue hasteEnv .dialARide ([9].map (planOf hasteEnv haste5.core)) :=
  ⟨haste_run, by decide +kernel, by decide +kernel, by decide +kernel, by decide +kernel⟩

/-- C43 is false. The first flip, of the stops at 6 and 3, is judged feasible and the verdict is memoised. The flip of
the stops at 12 and 9 makes the vehicle reach 12 at time 22, after it closed at 18, and is accepted on that verdict. -/
theorem C43_infeasible_result : ¬ OneShiftKeepsFeasible hasteEnv .dialARide := by
  intro hp
  have hf : FeasibleItinerary hasteEnv (planOf hasteEnv haste4.core 4).1 (planOf hasteEnv haste4.core 4).2 :=
    (freshV_iff (haste_one.sound 4 (by simp)).1).1 (by decide +kernel)
  have := hp haste4 haste5 [4] [9] id haste_one (fun l => List.Perm.refl l) (by simpa using hf) haste_run 9 (by simp)
  have hw := ((C73_one_shift_keeps_trips haste_one (fun l => List.Perm.refl l) haste_run).2.2.1 4 (by simp)).1
  have e : 4 + haste4.core.nRoute = 9 := by decide +kernel
  rw [e] at hw
  exact absurd ((freshV_iff hw).2 this) (by decide +kernel)

/-! ## C44 -/

/-- C44 as stated, for one index: if a step changed nothing about the cost, then the route has the stop order, links and
reported times it had before. -/
def UndoneFlipRestores (E : Env) (k : Objective) : Prop :=
  ∀ (h h' : Heap) (r i : Nat) (cost : List ℚ), Sound E h r → 1 ≤ i → i + 1 < (h.core.route r).stops.length →
    oneShiftAt E k r i cost h = (.ok cost, h') →
    h'.core = h.core ∧ ∀ s ∈ (h.core.route r).stops, (arrival E s h').1 = (arrival E s h).1

/-- **C44, the part that holds.** For every well formed route and adjacent stops `a`, `b` of it, after its first stop:
flipping them, then asking any questions, then flipping back succeeds, and every attribute of every object is what it was
before: stop order, links, requested times, trips. All memoised times of `b` and of the stops after it are gone.
Missing: the times memoised for `a` while it came after `b` stay (`C44_stale_times`). -/
theorem C44_undone_flip_partial {h : Heap} {r a b : Nat} {pre suf : List Nat} (hc : Chained h.core r)
    (es : (h.core.route r).stops = pre ++ a :: b :: suf) (l : List Query) :
    ∃ h1 h2, flipStops r a b suf.head? h = (.ok (), h1) ∧ (h1.core.route r).stops = pre ++ b :: a :: suf ∧
      flipStops r b a suf.head? (askAll E l h1) = (.ok (), h2) ∧ h2.core = h.core ∧
      ∀ s ∈ b :: suf, h2.arr s = none ∧ h2.dep s = none := by
  have f1 := flipStops_run es hc
  generalize hg : flushStops { h with core := flipCore h.core r pre a b suf } (a :: suf) = h1 at f1
  have c1 : h1.core = flipCore h.core r pre a b suf := by rw [← hg, flushStops_core]
  have c2 : (askAll E l h1).core = flipCore h.core r pre a b suf := (C74_asking_changes_nothing E l h1).core.trans c1
  have es2 : ((askAll E l h1).core.route r).stops = pre ++ b :: a :: suf := by rw [c2, flipCore_stops]
  have f2 := flipStops_run es2 (by rw [c2]; exact flip_chained hc es)
  refine ⟨h1, _, f1, by rw [c1, flipCore_stops], f2, ?_, ?_⟩
  · rw [flushStops_core]
    show flipCore (askAll E l h1).core r pre b a suf = h.core
    rw [c2]
    exact flipCore_back hc es
  · intro s hs
    rw [flushStops_arr, flushStops_dep]
    simp only [if_pos hs, and_self]

/-- Three trips to 20 from 9, 6 and 3. -/
def backEnv : Env where
  metric := manhattan
  trip := fun t => { origin := { position := [[9, 6, 3].getD t 0] }, destination := { position := [20] } }
  vehicle := fun _ => { origin := { position := [0] }, capacity := 10 }

theorem backEnv_ok : EnvOK backEnv where
  metric := manhattan_nonneg
  originDuration _ := le_refl _
  destinationDuration _ := le_refl _
  capacity _ := by show (0 : ℚ) ≤ 1; norm_num

def back0 : Heap := (newRoute backEnv 0 .empty).2
def back1 : Heap := (compute backEnv true 0 [0] 0 1 back0).2
def back2 : Heap := (compute backEnv true 1 [1] 1 2 back1).2
def back3 : Heap := (compute backEnv true 2 [2] 2 3 back2).2
/-- One-shift works on copies. Route 7, the copy of route 3, picks the trips up at 9, 6 and 3. -/
def back4 : Heap := (deepcopyRoutes [3] back3).2
/-- After the step of one-shift at the stops at 9 and 6. -/
def back5 : Heap := (oneShiftAt backEnv .dialARide 7 1 [3, -52] back4).2

theorem back_reach : Reach backEnv back3 := by
  have r0 : Reach backEnv back0 := .newRoute (v := 0) (r := 0) .empty (eq_of_fst (by decide +kernel))
  have r1 : Reach backEnv back1 := .compute (rs := [1]) r0 (by decide +kernel) (by decide) (by decide +kernel) (by decide +kernel)
    (eq_of_fst (by decide +kernel))
  have r2 : Reach backEnv back2 := .compute (rs := [2]) r1 (by decide +kernel) (by decide) (by decide +kernel) (by decide +kernel)
    (eq_of_fst (by decide +kernel))
  exact .compute (rs := [3]) r2 (by decide +kernel) (by decide) (by decide +kernel) (by decide +kernel)
    (eq_of_fst (by decide +kernel))

theorem back_sound : Sound backEnv back4 7 := by
  refine (double_inv (back_reach.inv (md := .any) backEnv_ok (fun h => nomatch h))).sound (.inr ⟨3, ?_, ?_⟩)
  · show 3 < back3.core.nRoute; decide +kernel
  · decide +kernel

/-- The value of route 7 is the cost the step is given; the flip does not improve it and is undone; the vehicle, which
reaches the stop at 9 at time 9, is now reported to reach it at time 15, after the way from 6. -/
example : (Objective.value backEnv .dialARide (.route 7) back4).1 = .ok [3, -52] ∧
    oneShiftAt backEnv .dialARide 7 1 [3, -52] back4 = (.ok [3, -52], back5) ∧
    (Py.mapEach (back4.core.route 7).stops (arrival backEnv) back4).1 = .ok [0, 9, 12, 15, 32, 32, 32, 52] ∧
    (Py.mapEach (back5.core.route 7).stops (arrival backEnv) back5).1 = .ok [0, 15, 18, 21, 38, 38, 38, 58] :=
  ⟨by decide +kernel, eq_of_fst (by decide +kernel), by decide +kernel, by decide +kernel⟩

/-- C44 is false: reported times are not restored. -/
theorem C44_stale_times : ¬ UndoneFlipRestores backEnv .dialARide := by
  intro hp
  have := (hp back4 back5 7 1 [3, -52] back_sound (by decide) (by decide +kernel) (eq_of_fst (by decide +kernel))).2
  exact absurd this (by decide +kernel)

/-- The route meets the hypotheses of `C44_undone_flip_partial`. -/
example : Chained back4.core 7 ∧ ∃ pre suf a b, pre ≠ [] ∧ suf ≠ [] ∧ (back4.core.route 7).stops = pre ++ a :: b :: suf :=
  ⟨back_sound.1.toChained, (back4.core.route 7).stops.take 1, (back4.core.route 7).stops.drop 3,
    (back4.core.route 7).stops.getD 1 0, (back4.core.route 7).stops.getD 2 0, by decide +kernel, by decide +kernel, by decide +kernel⟩

end Jinete
