import Verif.Proofs.OneShiftReturns
import Verif.Proofs.Check
import Verif.Props.TwoOpt

/-!
# C120: one-shift returns
-/

set_option autoImplicit false

namespace Jinete

variable {E : Env}

/-- C120 as stated: one-shift, applied to well formed routes of different vehicles whose memos are right, raises nothing. -/
def OneShiftReturns (E : Env) (k : Objective) : Prop :=
  ∀ (h : Heap) (rs : List Nat) (order : List Nat → List Nat), OnePerVehicle E h rs → (∀ l, (order l).Perm l) →
    ∃ l h', improveWith E order (oneShift E k) rs h = (.ok l, h')

/-- The routes are ready for a pass without copies. -/
theorem OnePerVehicle.shiftable (hE : EnvOK E) {h : Heap} {rs : List Nat} (o : OnePerVehicle E h rs)
    (hj : ∀ r ∈ rs, StopsJudged h r ∨ NoLoads h r) : AllShiftable E h rs where
  each r hr := by
    have hs := o.sound r hr
    exact ⟨hs.1, shownRow_coherent hE hs.1.toChained ((cachesAgree_iff hs.1.toChained).1 hs.2), .inr (hj r hr)⟩
  vehicles := o.vehicles

/-- The copies are ready. -/
theorem OnePerVehicle.copies_shiftable (hE : EnvOK E) {h : Heap} {rs l : List Nat} (o : OnePerVehicle E h rs)
    (hj : ∀ r ∈ rs, StopsJudged h r ∨ NoLoads h r) (hp : l.Perm (rs.map (· + h.core.nRoute))) :
    AllShiftable E h.double l where
  each q hq := by
    obtain ⟨r, hr, rfl⟩ := List.mem_map.1 (hp.mem_iff.1 hq)
    have hs := o.sound r hr
    have hw := hs.1
    refine ⟨double_wf hw, shownRow_coherent hE (double_wf hw).toChained ?_, .inr ?_⟩
    · intro s hs'
      rw [double_stops hw] at hs'
      obtain ⟨x, hx, rfl⟩ := List.mem_map.1 hs'
      exact double_coh hw hx ((cachesAgree_iff hw.toChained).1 hs.2 x hx)
    · refine (hj r hr).imp (fun j s hs' hd => ?_) fun j s hs' => ?_
      · rw [double_stops hw] at hs'
        obtain ⟨x, hx, rfl⟩ := List.mem_map.1 hs'
        have hlt := hw.alloc x hx
        have es : h.double.core.stop (x + h.core.nStop) = _ := double_stop hlt
        show repeated h.core.nStop h.sfeas h.sfeas _ ≠ none
        rw [repeated_high hlt]
        refine j x hx ?_
        rw [es] at hd
        simpa [StopCore.moved] using hd
      · rw [double_stops hw] at hs'
        obtain ⟨x, hx, rfl⟩ := List.mem_map.1 hs'
        show repeated h.core.nStop h.cap h.cap _ = none
        rw [repeated_high (hw.alloc x hx)]
        exact j x hx
  vehicles := by
    refine (hp.map _).nodup_iff.2 ?_
    rw [List.map_map]
    have := List.map_congr_left (l := rs) (f := (fun r => (h.double.core.route r).vehicle) ∘ (· + h.core.nRoute))
      (g := fun r => (h.core.route r).vehicle) fun r hr => by
        show (h.double.core.route (r + h.core.nRoute)).vehicle = _
        rw [double_route (o.sound r hr).1]; rfl
    rw [this]
    exact o.vehicles

theorem improveWith_inPlace {step : List Nat → M (List Nat)} {order : List Nat → List Nat} {rs : List Nat} {h : Heap} :
    improveWith E order step rs h = improveInPlace E step (order (rs.map (· + h.core.nRoute))) h.double := rfl

/-- **C120, the part that holds.** Apply one-shift, with any objective and with or without copies, to well formed routes
of different vehicles whose memos are right. If, in each route, every stop that serves a trip was judged before, or no load
is memoised, then no assertion fails and nothing else is raised, although flips leave stale times behind: the result are the
copies or, without copies, the given routes. With copies the vehicles and trips are those of the given routes, every trip
is picked up before it is dropped, and the given routes are as before.
Missing: a route of which loads are memoised and verdicts are not (`C120_one_shift_raises`). -/
theorem C120_one_shift_returns_partial (hE : EnvOK E) (k : Objective) {h : Heap} {rs : List Nat} (o : OnePerVehicle E h rs)
    (hj : ∀ r ∈ rs, StopsJudged h r ∨ NoLoads h r) {order : List Nat → List Nat} (ho : ∀ l, (order l).Perm l) :
    (∃ l h', improveWith E order (oneShift E k) rs h = (.ok l, h') ∧ l = order (rs.map (· + h.core.nRoute)) ∧
      SameWork h.core rs h'.core l ∧ (∀ q ∈ l, WellFormed h'.core q ∧ PicksFirst (itinerary h'.core q)) ∧
      ∀ r ∈ rs, itinerary h'.core r = itinerary h.core r) ∧
    ∃ h', improveInPlace E (oneShift E k) rs h = (.ok rs, h') ∧ ∀ r ∈ rs, WellFormed h'.core r := by
  obtain ⟨h1, e1, f1⟩ := oneShift_checked_returns hE k (o.copies_shiftable hE hj (ho _))
  obtain ⟨h2, e2, f2⟩ := oneShift_checked_returns hE k (o.shiftable hE hj)
  have e1' : improveWith E order (oneShift E k) rs h = (.ok (order (rs.map (· + h.core.nRoute))), h1) := e1
  obtain ⟨_, c2, _, c4, _⟩ := C73_one_shift_keeps_trips o ho e1'
  exact ⟨⟨_, h1, e1', rfl, c4, fun q hq => ⟨(f1.each q hq).wf, (f1.each q hq).wf.picksFirst⟩, fun r hr => (c2 r hr).2.2⟩,
    h2, e2, fun r hr => (f2.each r hr).wf⟩

/-- Route 4 of `haste4` meets the hypotheses: all its stops that serve a trip were judged, and loads are memoised. So does
route 0 of `haste0`, which has no stops but the depots. -/
example : OnePerVehicle hasteEnv haste4 [4] ∧ StopsJudged haste4 4 ∧ ¬ NoLoads haste4 4 ∧ NoLoads haste0 0 :=
  ⟨haste_one, by unfold StopsJudged; decide +kernel, by unfold NoLoads; decide +kernel, by unfold NoLoads; decide +kernel⟩

/-! ## A route that was not judged -/

/-- A route made by hand of two trips, one after the other; nobody asked whether it is feasible. -/
def byHand : M Unit := do
  let r ← newRoute backEnv 0
  let h ← Py.read
  let p0 ← newStop 0 [9] (h.core.route r).stops.head?
  let d0 ← newStop 0 [20] (some p0)
  appendPlannedTrip backEnv r (← newPlannedTrip backEnv 0 0 (some p0) (some d0))
  let p1 ← newStop 0 [6] (some d0)
  let d1 ← newStop 0 [20] (some p1)
  appendPlannedTrip backEnv r (← newPlannedTrip backEnv 0 1 (some p1) (some d1))

/-- Route 0 visits the stops 2, 3, 4 and 5, at 9, 20, 6 and 20. -/
def unasked : Heap := (byHand .empty).2
/-- After `stop.capacity` of the last of them. -/
def asked : Heap := askAll backEnv [.capacity 5] unasked

theorem asked_one : OnePerVehicle backEnv asked [0] where
  sound r hr := by
    simp at hr
    rw [hr]; exact ⟨wfB_sound (by decide +kernel), agreeB_sound (by decide +kernel)⟩
  vehicles := by decide +kernel
  trips := by decide +kernel

/-- C120 is false: after the flip of the stops at 20 and 6 the pickup at 6 still reports a load of 1, then the first trip
leaves and then the second one, and `assert 0 <= result` fails. The same route before the question is improved. -/
theorem C120_one_shift_raises : ¬ OneShiftReturns backEnv .dialARide := by
  intro hp
  obtain ⟨l, h', e⟩ := hp asked [0] id asked_one fun l => List.Perm.refl l
  have : (improveWith backEnv id (oneShift backEnv .dialARide) [0] asked).1 = .error .assertion := by decide +kernel
  rw [e] at this
  cases this

example : (byHand .empty).1 = .ok () ∧ (unasked.core.route 0).stops = [0, 2, 3, 4, 5, 1] ∧
    (asked.core.route 0).stops.map asked.cap = [some 0, some 1, some 0, some 1, some 0, none] ∧
    NoLoads unasked 0 ∧ (improveWith backEnv id (oneShift backEnv .dialARide) [0] unasked).1 = .ok [1] :=
  ⟨by decide +kernel, by decide +kernel, by decide +kernel, by unfold NoLoads; decide +kernel, by decide +kernel⟩

end Jinete
