import Verif.Proofs.Steady
import Verif.Props.Reading
import Verif.Props.OneShift
import Verif.Spec.Asking

/-!
# C119: the answer to a question does not depend on what was asked before
-/

set_option autoImplicit false

namespace Jinete

/-- The type of the answer. -/
def Query.Answer : Query → Type
  | arrival _ | departure _ | starting _ | transitTime _ | waitingTime _ | capacity _ => ℚ
  | allPrevious _ => List Nat
  | stopFeasible _ => Bool
  | pickupTime _ | deliveryTime _ | tripDuration _ => ℚ
  | tripFeasible _ => Bool
  | firstStop _ | lastStop _ => Nat
  | duration _ | routeTransitTime _ | routeWaitingTime _ => ℚ
  | feasibleTrips _ | routeFeasible _ => Bool
  | value _ _ => List ℚ
  | best _ _ => Option Optimizable
  | scoring _ _ => Score
  | bestRoute _ _ => Option Nat
  | sorted _ _ | nbest _ _ _ => List Nat
  | planningFeasible _ => Bool
  | coverageRate _ _ => ℚ
  | optimizeWith _ _ => List Nat

/-- What is evaluated, with the answer. -/
def Query.reply (E : Env) : (q : Query) → M q.Answer
  | arrival s => Jinete.arrival E s
  | departure s => Jinete.departure E s
  | starting s => Jinete.starting E s
  | transitTime s => Jinete.transitTime E s
  | waitingTime s => Jinete.waitingTime E s
  | capacity s => Jinete.capacity E s
  | allPrevious s => Jinete.allPrevious s
  | stopFeasible s => Jinete.stopFeasible E s
  | pickupTime p => Jinete.pickupTime E p
  | deliveryTime p => Jinete.deliveryTime E p
  | tripDuration p => ptDuration E p
  | tripFeasible p => ptFeasible E p
  | firstStop r => Jinete.firstStop r
  | lastStop r => Jinete.lastStop r
  | duration r => routeDuration E r
  | routeTransitTime r => Jinete.routeTransitTime E r
  | routeWaitingTime r => Jinete.routeWaitingTime E r
  | feasibleTrips r => feasiblePlannedTrips E r
  | routeFeasible r => Jinete.routeFeasible E r
  | value k x => k.value E x
  | best k l => k.best E l
  | scoring k r => k.scoring E r
  | bestRoute k l => k.best E l
  | sorted k l => k.sorted E l
  | nbest k n l => k.nbest E n l
  | planningFeasible l => Jinete.planningFeasible E l
  | coverageRate job l => Jinete.coverageRate E job l
  | optimizeWith k l => Jinete.optimizeWith E k l

/-- `Query.ask` evaluates the same and forgets the answer. -/
theorem Query.ask_eq (E : Env) (q : Query) : q.ask E = forget (q.reply E) := by cases q <;> rfl

/-- The question is about objects of the routes `rs`. -/
def Query.About (c : Core) (rs : List Nat) : Query → Prop
  | arrival s | departure s | starting s | transitTime s | waitingTime s | capacity s | allPrevious s | stopFeasible s => StopOf c rs s
  | pickupTime p | deliveryTime p | tripDuration p | tripFeasible p => TripAt c rs p
  | firstStop r | lastStop r | duration r | routeTransitTime r | routeWaitingTime r | feasibleTrips r | routeFeasible r => r ∈ rs
  | value _ x => x.Of c rs
  | best _ l => ∀ x, some x ∈ l → x.Of c rs
  | scoring _ r => r ∈ rs
  | bestRoute _ l => ∀ r, some r ∈ l → r ∈ rs
  | sorted _ l | nbest _ _ l => ∀ r ∈ l, r ∈ rs
  | planningFeasible l | coverageRate _ l | optimizeWith _ l => ∀ r ∈ l, r ∈ rs

variable {E : Env}

namespace SelfContained
variable {c : Core} {rs : List Nat} (hc : SelfContained c rs)
include hc

theorem grounded : Grounded c (StopOf c rs) := by
  rintro _ ⟨r, hr, hs⟩
  obtain ⟨pre, suf, e⟩ := List.append_of_mem hs
  refine ⟨pre.reverse, (hc.chained r hr).anc e, (hc.chained r hr).len e, fun x hx => ⟨r, hr, ?_⟩⟩
  rw [e]
  simp at hx ⊢
  exact Or.inl hx

theorem tripIn {p : Nat} (hp : TripAt c rs p) : TripIn c (StopOf c rs) p := ⟨hc.pickup p hp, hc.delivery p hp⟩

theorem stopIn {s : Nat} (hs : StopOf c rs s) : ∀ p ∈ (c.stop s).pickups, TripIn c (StopOf c rs) p :=
  fun _ hp => hc.tripIn ⟨s, hs, Or.inl hp⟩

theorem routeIn {r : Nat} (hr : r ∈ rs) : RouteIn c (StopOf c rs) r :=
  fun _ hs => ⟨⟨r, hr, hs⟩, hc.stopIn ⟨r, hr, hs⟩⟩

theorem value (k : Objective) {x : Optimizable} (hx : x.Of c rs) :
    Settled c (Alike3 E c (StopOf c rs)) (Alike3 E c (StopOf c rs)) (k.value E x) := by
  have g := hc.grounded
  cases x with
  | result l => exact Settled.objectivePlanning g k fun r hr => hc.routeIn (hx r hr)
  | planning l => exact Settled.objectivePlanning g k fun r hr => hc.routeIn (hx r hr)
  | route r => exact Settled.objectiveRoute g k (hc.routeIn hx)
  | stop s => exact Settled.objectiveStop g k (hc.stopIn hx)
  | plannedTrip p => exact Settled.objectivePlannedTrip g k (hc.tripIn hx)
  | tuple v => exact Settled.pure alike3 _

theorem steady {q : Query} (hq : q.About c rs) : Settled c (Alike3 E c (StopOf c rs)) (Alike3 E c (StopOf c rs)) (q.reply E) := by
  have g := hc.grounded
  have a3 : AlikeNow (Alike3 E c (StopOf c rs)) := alike3
  cases q with
  | arrival s => exact Settled.up g (Settled.arrival g hq)
  | departure s => exact Settled.up g (Settled.departure g hq)
  | starting s => exact Settled.up g (Settled.starting g hq)
  | transitTime s => exact Settled.up g (Settled.transitTime g hq)
  | waitingTime s => exact Settled.up g (Settled.waitingTime g hq)
  | capacity s => exact Settled.up g (Settled.capacity g hq)
  | allPrevious s => exact Settled.allPrevious a3 a3 s
  | stopFeasible s => exact Settled.up3 g (Settled.up2 g (Settled.stopFeasible g hq))
  | pickupTime p => exact Settled.up g (Settled.pickupTime g (hc.tripIn hq))
  | deliveryTime p => exact Settled.up g (Settled.deliveryTime g (hc.tripIn hq))
  | tripDuration p => exact Settled.up g (Settled.ptDuration g (hc.tripIn hq))
  | tripFeasible p => exact Settled.up3 g (Settled.ptFeasible g (hc.tripIn hq))
  | firstStop r => exact Settled.firstStop a3 a3 r
  | lastStop r => exact Settled.lastStop a3 a3 r
  | duration r => exact Settled.up g (Settled.routeDuration g (hc.routeIn hq))
  | routeTransitTime r => exact Settled.up g (Settled.routeTransitTime g (hc.routeIn hq))
  | routeWaitingTime r => exact Settled.up g (Settled.routeWaitingTime g (hc.routeIn hq))
  | feasibleTrips r => exact Settled.up3 g (Settled.feasiblePlannedTrips g (hc.routeIn hq))
  | routeFeasible r => exact Settled.routeFeasible g (hc.routeIn hq)
  | value k x => exact hc.value k hq
  | best k l => exact Settled.bestOf _ fun x hx => hc.value k (hq x hx)
  | scoring k r => exact Settled.scoring g k (hc.routeIn hq)
  | bestRoute k l => exact Settled.bestOf _ fun r hr => Settled.scoring g k (hc.routeIn (hq r hr))
  | sorted k l => exact Settled.bind3 (Settled.keyed fun r hr => Settled.scoring g k (hc.routeIn (hq r hr))) fun _ => Settled.pure a3 _
  | nbest k n l => exact Settled.bind3 (Settled.keyed fun r hr => Settled.scoring g k (hc.routeIn (hq r hr))) fun _ => Settled.pure a3 _
  | planningFeasible l => exact Settled.planningFeasible g fun r hr => hc.routeIn (hq r hr)
  | coverageRate job l => exact Settled.coverageRate job l
  | optimizeWith k l => exact Settled.optimizeWith g k fun r hr => hc.routeIn (hq r hr)

theorem asked (l : List Query) : ∀ h : Heap, h.core = c → (∀ q ∈ l, q.About c rs) → Alike3 E c (StopOf c rs) h (askAll E l h) := by
  induction l with
  | nil => exact fun h _ _ => alike3.refl h
  | cons q l ih =>
    intro h e hl
    have s := (hc.steady (E := E) (hl q (by simp))).state h e
    have e1 : (q.ask E h).2 = (q.reply E h).2 := by
      rw [q.ask_eq]
      unfold forget
      rw [Py.bind_run]
      cases q.reply E h with
      | mk x g => cases x <;> rfl
    show Alike3 E c (StopOf c rs) h (askAll E l (q.ask E h).2)
    rw [e1]
    exact alike3.trans _ _ _ s (ih _ (by rw [alike3.core _ _ s, e]) fun q' hq' => hl q' (by simp [hq']))

end SelfContained

/-- Routes that are well formed are self-contained. -/
theorem SelfContained.of_wellFormed {c : Core} {rs : List Nat} (hw : ∀ r ∈ rs, WellFormed c r) : SelfContained c rs := by
  have key : ∀ p, TripAt c rs p → (∀ u ∈ (c.pt p).pickup, StopOf c rs u) ∧ ∀ d ∈ (c.pt p).delivery, StopOf c rs d := by
    rintro p ⟨s, ⟨r, hr, hs⟩, hp⟩
    obtain ⟨pre, suf, e⟩ := List.append_of_mem hs
    rcases hp with hp | hp
    · obtain ⟨_, h1, d, hd, h2, _⟩ := (hw r hr).pick pre s suf e p hp
      rw [h1, h2]
      refine ⟨fun u hu => ?_, fun d' hd' => ?_⟩
      · cases hu; exact ⟨r, hr, hs⟩
      · cases hd'; exact ⟨r, hr, by rw [e]; simp [hd]⟩
    · obtain ⟨_, h1, u, hu, h2, _⟩ := (hw r hr).drop pre s suf e p hp
      rw [h1, h2]
      refine ⟨fun u' hu' => ?_, fun d' hd' => ?_⟩
      · cases hu'; exact ⟨r, hr, by rw [e]; simp [hu]⟩
      · cases hd'; exact ⟨r, hr, hs⟩
  exact ⟨fun r hr => (hw r hr).toChained, fun p hp => (key p hp).1, fun p hp => (key p hp).2⟩

/-- **C119.** Ask anything about the objects of some self-contained routes after any other questions about them: the answer, be
it a value or an exception, is the one that the first question would have got. This holds in every state, also when memoised times,
loads and verdicts are out of date. -/
theorem C119_answers_do_not_depend_on_questions (E : Env) {h : Heap} {rs : List Nat} (hc : SelfContained h.core rs) (l : List Query)
    (hl : ∀ q ∈ l, q.About h.core rs) {q : Query} (hq : q.About h.core rs) :
    (q.reply E (askAll E l h)).1 = (q.reply E h).1 :=
  (hc.steady hq).answer h _ rfl (hc.asked l h rfl hl)

/-- **C119**, two orders of questions. -/
theorem C119_any_two_orders (E : Env) {h : Heap} {rs : List Nat} (hc : SelfContained h.core rs) (l l' : List Query)
    (hl : ∀ q ∈ l, q.About h.core rs) (hl' : ∀ q ∈ l', q.About h.core rs) {q : Query} (hq : q.About h.core rs) :
    (q.reply E (askAll E l h)).1 = (q.reply E (askAll E l' h)).1 :=
  (C119_answers_do_not_depend_on_questions E hc l hl hq).trans (C119_answers_do_not_depend_on_questions E hc l' hl' hq).symm

/-- The route left behind by an undone flip of one-shift, with times that are out of date, meets the hypotheses. -/
theorem back5_contained : SelfContained back5.core [7] :=
  .of_wellFormed fun r hr => by
    simp only [List.mem_singleton] at hr
    subst hr
    exact wfB_sound (by decide +kernel)

/-- The second stop is reached at time 9, but 15 is reported, and so it is after any other questions. Those have answers that
were not memoised before. -/
example : ((routeTimetable backEnv back5.core 7)[1]?).map Tm.arr = some 9 ∧
    (back5.core.route 7).stops[1]? = some 33 ∧ back5.arr 34 = none ∧
    (arrival backEnv 33 back5).1 = .ok 15 ∧
    (arrival backEnv 33 (askAll backEnv [.routeFeasible 7, .arrival 34, .capacity 39, .scoring .shortestTime 7] back5)).1 = .ok 15 ∧
    (askAll backEnv [.arrival 34] back5).arr 34 = some 18 := by decide +kernel

end Jinete
