import Verif.Model.LocalSearch
import Verif.Spec.Reading

/-!
# Computations that change no attribute of any object, in any state
-/

set_option autoImplicit false

namespace Jinete

variable {α β : Type}

theorem OnlyMemos.refl (h : Heap) : OnlyMemos h h := ⟨rfl, fun _ _ e => e, fun _ _ e => e, fun _ _ e => e⟩

theorem OnlyMemos.trans {h1 h2 h3 : Heap} (a : OnlyMemos h1 h2) (b : OnlyMemos h2 h3) : OnlyMemos h1 h3 :=
  ⟨b.core.trans a.core, fun s x e => b.stopVerdict s x (a.stopVerdict s x e), fun s x e => b.tripVerdict s x (a.tripVerdict s x e),
    fun s x e => b.routeVerdict s x (a.routeVerdict s x e)⟩

/-- Whatever the state, returning or raising, only new memoised values may appear. -/
def Silent (m : M α) : Prop := ∀ h, OnlyMemos h (m h).2

namespace Silent

theorem ok {m : M α} (s : Silent m) {h h' : Heap} {x : Except Err α} (e : m h = (x, h')) : OnlyMemos h h' := by
  have := s h
  rw [e] at this
  exact this

theorem pure (a : α) : Silent (Pure.pure a : M α) := OnlyMemos.refl
theorem raise (e : Err) : Silent (Py.raise e : M α) := OnlyMemos.refl
theorem read : Silent (Py.read : M Heap) := OnlyMemos.refl

theorem bind {m : M α} {f : α → M β} (hm : Silent m) (hf : ∀ a, Silent (f a)) : Silent (m >>= f) := by
  intro h
  rw [Py.bind_run]
  have := hm h
  cases e : m h with
  | mk x h1 =>
    rw [e] at this
    cases x with
    | ok a => exact this.trans (hf a h1)
    | error e => exact this

/-- Reading the state first. -/
theorem asked {f : Heap → M β} (hf : ∀ h, OnlyMemos h (f h h).2) : Silent (Py.read >>= f) := fun h => by
  rw [Py.read_bind]
  exact hf h

theorem assert (b : Bool) : Silent (Py.assert b : M Unit) := by
  cases b
  · exact raise _
  · exact pure _

theorem unwrap (e : Err) (o : Option α) : Silent (Py.unwrap e o : M α) := by
  cases o
  · exact raise _
  · exact pure _

theorem index (l : List α) (i : Nat) : Silent (Py.index l i : M α) := by
  unfold Py.index
  cases l[i]? with
  | none => exact raise _
  | some a => exact pure _

theorem ite {p : Prop} [Decidable p] {a b : M α} (ha : Silent a) (hb : Silent b) : Silent (if p then a else b) := by
  split_ifs
  · exact ha
  · exact hb

theorem mapEach {f : α → M β} (hf : ∀ a, Silent (f a)) (l : List α) : Silent (Py.mapEach l f) := by
  induction l with
  | nil => exact pure _
  | cons x l ih =>
    show Silent (f x >>= fun y => Py.mapEach l f >>= fun ys => Pure.pure (y :: ys))
    exact bind (hf x) fun _ => bind ih fun _ => pure _

/-- Updates of memoised numbers. -/
theorem memo {f : Heap → Heap} (h1 : ∀ h, (f h).core = h.core) (h2 : ∀ h, (f h).sfeas = h.sfeas) (h3 : ∀ h, (f h).pfeas = h.pfeas)
    (h4 : ∀ h, (f h).rfeas = h.rfeas) : Silent (Py.modify f) := fun h =>
  ⟨h1 h, fun _ _ e => by rw [← e]; exact congrFun (h2 h) _, fun _ _ e => by rw [← e]; exact congrFun (h3 h) _,
    fun _ _ e => by rw [← e]; exact congrFun (h4 h) _⟩

/-- A verdict that was not memoised is computed and stored. -/
theorem verdict {m : M Bool} (hm : Silent m) {f : Bool → Heap → Heap} {h : Heap}
    (hf : ∀ b h', OnlyMemos h h' → OnlyMemos h (f b h')) :
    OnlyMemos h ((do let b ← m; Py.modify (f b); Pure.pure b : M Bool) h).2 := by
  rw [Py.bind_run]
  have := hm h
  cases e : m h with
  | mk x h1 =>
    rw [e] at this
    cases x with
    | ok b => exact hf b h1 this
    | error e => exact this

theorem stored {g : Nat → Option Bool} {g' : Nat → Option Bool} {s : Nat} {b : Bool} (h0 : g s = none)
    (hk : ∀ x y, g x = some y → g' x = some y) : ∀ x y, g x = some y → Function.update g' s (some b) x = some y := by
  intro x y e
  have : x ≠ s := by rintro rfl; rw [h0] at e; cases e
  rw [Function.update_of_ne this]
  exact hk x y e

variable (E : Env)

theorem prevDepartureWith {dep : Nat → M ℚ} (hd : ∀ s, Silent (dep s)) (s : Nat) : Silent (prevDepartureWith E dep s) := by
  refine bind read fun h => ?_
  cases (h.core.stop s).previous with
  | none => exact pure _
  | some p => exact hd p

theorem transitTimeWith {dep : Nat → M ℚ} (hd : ∀ s, Silent (dep s)) (s : Nat) : Silent (transitTimeWith E dep s) :=
  bind read fun _ => bind (prevDepartureWith E hd s) fun _ => pure _

theorem arrivalWith {dep : Nat → M ℚ} (hd : ∀ s, Silent (dep s)) (s : Nat) : Silent (arrivalWith E dep s) := by
  refine bind read fun h => ?_
  cases h.arr s with
  | some v => exact pure _
  | none =>
    exact bind (prevDepartureWith E hd s) fun _ => bind (transitTimeWith E hd s) fun _ => bind (memo (fun _ => rfl) (fun _ => rfl) (fun _ => rfl) fun _ => rfl) fun _ => pure _

theorem startingWith {dep : Nat → M ℚ} (hd : ∀ s, Silent (dep s)) (s : Nat) : Silent (startingWith E dep s) := by
  refine bind read fun h => ?_
  cases (h.core.stop s).start with
  | some v => exact bind (arrivalWith E hd s) fun _ => pure _
  | none => exact bind (arrivalWith E hd s) fun _ => bind (arrivalWith E hd s) fun _ => pure _

theorem departureF (n : Nat) : ∀ s, Silent (departureF E n s) := by
  induction n with
  | zero => exact fun s => raise _
  | succ n ih =>
    intro s
    refine bind read fun h => ?_
    cases h.dep s with
    | some v => exact pure _
    | none => exact bind (startingWith E ih s) fun _ => bind (memo (fun _ => rfl) (fun _ => rfl) (fun _ => rfl) fun _ => rfl) fun _ => pure _

theorem departure (s : Nat) : Silent (departure E s) := fun h => departureF E h.fuel s h
theorem arrival (s : Nat) : Silent (arrival E s) := fun h => arrivalWith E (departureF E h.fuel) s h
theorem starting (s : Nat) : Silent (starting E s) := fun h => startingWith E (departureF E h.fuel) s h
theorem transitTime (s : Nat) : Silent (transitTime E s) := fun h => transitTimeWith E (departureF E h.fuel) s h

theorem waitingTime (s : Nat) : Silent (waitingTime E s) :=
  bind (starting E s) fun _ => bind (arrival E s) fun _ => bind (assert _) fun _ => pure _

theorem capacityF (n : Nat) : ∀ s, Silent (capacityF E n s) := by
  induction n with
  | zero => exact fun s => raise _
  | succ n ih =>
    intro s
    refine bind read fun h => ?_
    cases h.cap s with
    | some v => exact pure _
    | none =>
      refine bind (bind read fun h => ?_) fun _ => bind (assert _) fun _ => bind (memo (fun _ => rfl) (fun _ => rfl) (fun _ => rfl) fun _ => rfl) fun _ => pure _
      cases (h.core.stop s).previous with
      | none => exact pure _
      | some p => exact ih p

theorem capacity (s : Nat) : Silent (capacity E s) := fun h => capacityF E h.fuel s h

theorem allPreviousF (n : Nat) : ∀ s, Silent (allPreviousF n s) := by
  induction n with
  | zero => exact fun s => raise _
  | succ n ih =>
    intro s
    refine bind read fun h => ?_
    cases (h.core.stop s).previous with
    | none => exact pure _
    | some p => exact bind (ih p) fun _ => pure _

theorem allPrevious (s : Nat) : Silent (allPrevious s) := fun h => allPreviousF h.fuel s h

theorem stopFeasible (s : Nat) : Silent (stopFeasible E s) := by
  refine asked fun h => ?_
  cases e : h.sfeas s with
  | some b => exact OnlyMemos.refl h
  | none =>
    refine verdict (m := Jinete.stopFeasible.body E s) ?_ fun b h' k => ⟨k.core, stored e k.stopVerdict, k.tripVerdict, k.routeVerdict⟩
    exact bind read fun _ => bind (starting E s) fun _ => ite (pure _) (bind (starting E s) fun _ => ite (pure _)
      (bind (capacity E s) fun _ => ite (pure _) (pure _)))

theorem ptPickup (p : Nat) : Silent (ptPickup p) := bind read fun _ => unwrap _ _
theorem ptDelivery (p : Nat) : Silent (ptDelivery p) := bind read fun _ => unwrap _ _
theorem pickupTime (p : Nat) : Silent (pickupTime E p) := bind (ptPickup p) fun _ => departure E _
theorem deliveryTime (p : Nat) : Silent (deliveryTime E p) := bind (ptDelivery p) fun _ => starting E _
theorem ptDuration (p : Nat) : Silent (ptDuration E p) :=
  bind (deliveryTime E p) fun _ => bind (pickupTime E p) fun _ => pure _

theorem ptFeasible (p : Nat) : Silent (ptFeasible E p) := by
  refine asked fun h => ?_
  cases e : h.pfeas p with
  | some b => exact OnlyMemos.refl h
  | none =>
    refine verdict (m := Jinete.ptFeasible.body E p) ?_ fun b h' k => ⟨k.core, k.stopVerdict, stored e k.tripVerdict, k.routeVerdict⟩
    exact bind (ptDelivery p) fun _ => bind (allPrevious _) fun _ => bind read fun _ => bind (assert _) fun _ =>
      bind (pickupTime E p) fun _ => bind (deliveryTime E p) fun _ => bind (assert _) fun _ => bind (ptPickup p) fun _ =>
      bind (stopFeasible E _) fun _ => ite (pure _) (bind (ptDelivery p) fun _ => bind (stopFeasible E _) fun _ =>
        ite (pure _) (bind (ptDuration E p) fun _ => bind read fun _ => ite (pure _) (pure _)))

theorem routeStops (r : Nat) : Silent (routeStops r) := bind read fun _ => pure _
theorem firstStop (r : Nat) : Silent (firstStop r) :=
  bind (routeStops r) fun _ => bind (index _ _) fun _ => bind read fun _ => bind (assert _) fun _ => pure _
theorem lastStop (r : Nat) : Silent (lastStop r) := bind (routeStops r) fun _ => unwrap _ _
theorem routeDuration (r : Nat) : Silent (routeDuration E r) :=
  bind (lastStop r) fun _ => bind (departure E _) fun _ => bind (firstStop r) fun _ => bind (departure E _) fun _ => pure _
theorem routeTransitTime (r : Nat) : Silent (routeTransitTime E r) :=
  bind read fun _ => bind (mapEach (ptDuration E) _) fun _ => pure _
theorem routeWaitingTime (r : Nat) : Silent (routeWaitingTime E r) :=
  bind (routeStops r) fun _ => bind (mapEach (waitingTime E) _) fun _ => pure _
theorem feasiblePlannedTrips (r : Nat) : Silent (feasiblePlannedTrips E r) :=
  bind read fun _ => bind (mapEach (ptFeasible E) _) fun _ => pure _

theorem routeFeasible (r : Nat) : Silent (routeFeasible E r) := by
  refine asked fun h => ?_
  cases e : h.rfeas r with
  | some b => exact OnlyMemos.refl h
  | none =>
    refine verdict (m := Jinete.routeFeasible.body E r) ?_ fun b h' k => ⟨k.core, k.stopVerdict, k.tripVerdict, stored e k.routeVerdict⟩
    exact bind read fun _ => bind (firstStop r) fun _ => ite (pure _) (bind (firstStop r) fun _ => bind (arrival E _) fun _ =>
      ite (pure _) (bind (lastStop r) fun _ => ite (pure _) (bind (lastStop r) fun _ => bind (departure E _) fun _ =>
        ite (pure _) (bind (routeDuration E r) fun _ => ite (pure _) (bind (feasiblePlannedTrips E r) fun _ =>
          ite (pure _) (pure _))))))

theorem timesCheck : ∀ l : List Nat, Silent (timesCheck E l)
  | [] => pure _
  | [_] => pure _
  | s1 :: s2 :: l => bind (departure E s1) fun _ => bind (arrival E s2) fun _ => ite (timesCheck (s2 :: l)) (pure _)

/-! ## Objectives and criteria -/

theorem distanceWalk (u : Option Nat) (n : Nat) : ∀ (s : Option Nat) (a : ℚ), Silent (distanceWalk E u n s a) := by
  induction n with
  | zero => exact fun _ _ => raise _
  | succ n ih =>
    intro s a
    refine ite (pure _) (bind (unwrap _ _) fun _ => bind read fun h => ?_)
    split
    · exact pure _
    · exact ih _ _

theorem objectivePlannedTrip (k : Objective) (p : Nat) : Silent (k.plannedTrip E p) := by
  cases k with
  | dialARide => exact bind read fun _ => bind (distanceWalk E _ _ _ _) fun _ => pure _
  | taxiSharing => exact bind read fun _ => ite (pure _) (bind (ptDuration E p) fun _ => pure _)
  | hashCode => exact bind read fun _ => ite (pure _) (bind (pickupTime E p) fun _ => pure _)

theorem objectiveStop (k : Objective) (s : Nat) : Silent (k.stop E s) :=
  bind read fun _ => bind (mapEach (objectivePlannedTrip E k) _) fun _ => pure _

theorem objectiveRoute (k : Objective) (r : Nat) : Silent (k.route E r) := by
  refine bind read fun h => ?_
  cases k with
  | dialARide => exact pure _
  | taxiSharing => exact bind (mapEach (objectiveStop E _) _) fun _ => pure _
  | hashCode => exact bind (mapEach (objectiveStop E _) _) fun _ => pure _

theorem objectivePlanning (k : Objective) (l : List Nat) : Silent (k.planning E l) :=
  bind (mapEach (objectiveRoute E k) _) fun _ => pure _

theorem objective (k : Objective) (x : Optimizable) : Silent (k.value E x) := by
  cases x with
  | result l => exact objectivePlanning E k l
  | planning l => exact objectivePlanning E k l
  | route r => exact objectiveRoute E k r
  | stop s => exact objectiveStop E k s
  | plannedTrip p => exact objectivePlannedTrip E k p
  | tuple v => exact pure _

variable {K : Type}

theorem keyed {key : α → M K} (hk : ∀ a, Silent (key a)) (l : List α) : Silent (keyed key l) :=
  mapEach (fun x => bind (hk x) fun _ => pure _) l

theorem bestOf [LinearOrder K] (d : Direction) {key : α → M K} (hk : ∀ a, Silent (key a)) (l : List (Option α)) :
    Silent (bestOf d key l) := bind (keyed hk _) fun _ => pure _

theorem best (k : Objective) (l : List (Option Optimizable)) : Silent (k.best E l) := bestOf _ (objective E k) l

theorem criterionValue (k : Criterion) (r : Nat) : Silent (k.value E r) := by
  cases k with
  | earliestLastDeparture => exact bind (lastStop r) fun _ => departure E _
  | shortestAverageDuration => exact bind read fun _ => ite (pure _) (bind (mapEach (ptDuration E) _) fun _ => pure _)
  | shortestTime => exact routeDuration E r
  | longestTime => exact routeDuration E r
  | longestUtilTime => exact bind read fun _ => pure _
  | hashCode =>
    exact bind read fun _ => bind (mapEach (fun p => bind read fun _ => bind (pickupTime E p) fun _ => pure _) _) fun _ => pure _

theorem scoring (k : Criterion) (r : Nat) : Silent (k.scoring E r) :=
  bind (routeFeasible E r) fun _ => ite (pure _) (bind (criterionValue E k r) fun _ => pure _)

theorem criterionBest (k : Criterion) (l : List (Option Nat)) : Silent (k.best E l) := bestOf _ (scoring E k) l
theorem criterionSorted (k : Criterion) (l : List Nat) : Silent (k.sorted E l) := bind (keyed (scoring E k) l) fun _ => pure _
theorem criterionNbest (k : Criterion) (n : Nat) (l : List Nat) : Silent (k.nbest E n l) :=
  bind (keyed (scoring E k) l) fun _ => pure _

theorem planningFeasible (l : List Nat) : Silent (planningFeasible E l) := by
  refine bind (mapEach (routeFeasible E) l) fun bs => ?_
  cases bs with
  | nil => exact raise _
  | cons b bs => exact pure _

theorem coverageRate (a b : List Nat) : Silent (coverageRate E a b) := bind read fun _ => ite (raise _) (pure _)

theorem optimizeWith (k : Objective) (l : List Nat) : Silent (optimizeWith E k l) :=
  bind (planningFeasible E l) fun _ => bind (objectivePlanning E k l) fun _ => pure _

theorem checkRoute (r : Nat) : Silent (checkRoute E r) :=
  bind read fun _ => bind (assert _) fun _ => bind (timesCheck E _) fun _ => assert _

theorem forEach {f : α → M Unit} (hf : ∀ a, Silent (f a)) (l : List α) : Silent (Py.forEach l f) := by
  induction l with
  | nil => exact pure _
  | cons x l ih => exact bind (hf x) fun _ => ih

theorem oneShiftRejects (k : Objective) (r : Nat) (cost : List ℚ) : Silent (oneShiftRejects E k r cost) :=
  bind (routeFeasible E r) fun _ => ite (bind (best E k _) fun _ => pure _) (pure _)

end Silent

end Jinete
