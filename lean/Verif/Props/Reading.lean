import Verif.Proofs.Silent
import Verif.Props.TwoOpt

/-!
# C74: asking for times, loads, verdicts, values and scores changes no object
-/

set_option autoImplicit false

namespace Jinete

/-- The properties and functions of the code that only read objects. -/
inductive Query
  | arrival (s : Nat) | departure (s : Nat) | starting (s : Nat) | transitTime (s : Nat) | waitingTime (s : Nat) | capacity (s : Nat)
  | allPrevious (s : Nat) | stopFeasible (s : Nat)
  | pickupTime (p : Nat) | deliveryTime (p : Nat) | tripDuration (p : Nat) | tripFeasible (p : Nat)
  | firstStop (r : Nat) | lastStop (r : Nat) | duration (r : Nat) | routeTransitTime (r : Nat) | routeWaitingTime (r : Nat)
  | feasibleTrips (r : Nat) | routeFeasible (r : Nat)
  | value (k : Objective) (x : Optimizable) | best (k : Objective) (l : List (Option Optimizable))
  | scoring (k : Criterion) (r : Nat) | bestRoute (k : Criterion) (l : List (Option Nat)) | sorted (k : Criterion) (l : List Nat)
  | nbest (k : Criterion) (n : Nat) (l : List Nat)
  | planningFeasible (l : List Nat) | coverageRate (job l : List Nat) | optimizeWith (k : Objective) (l : List Nat)

/-- Evaluate it and forget the answer. -/
def forget {α : Type} (m : M α) : M Unit := do
  let _ ← m
  pure ()

/-- What is evaluated. -/
def Query.ask (E : Env) : Query → M Unit
  | arrival s => forget (Jinete.arrival E s)
  | departure s => forget (Jinete.departure E s)
  | starting s => forget (Jinete.starting E s)
  | transitTime s => forget (Jinete.transitTime E s)
  | waitingTime s => forget (Jinete.waitingTime E s)
  | capacity s => forget (Jinete.capacity E s)
  | allPrevious s => forget (Jinete.allPrevious s)
  | stopFeasible s => forget (Jinete.stopFeasible E s)
  | pickupTime p => forget (Jinete.pickupTime E p)
  | deliveryTime p => forget (Jinete.deliveryTime E p)
  | tripDuration p => forget (ptDuration E p)
  | tripFeasible p => forget (ptFeasible E p)
  | firstStop r => forget (Jinete.firstStop r)
  | lastStop r => forget (Jinete.lastStop r)
  | duration r => forget (routeDuration E r)
  | routeTransitTime r => forget (Jinete.routeTransitTime E r)
  | routeWaitingTime r => forget (Jinete.routeWaitingTime E r)
  | feasibleTrips r => forget (feasiblePlannedTrips E r)
  | routeFeasible r => forget (Jinete.routeFeasible E r)
  | value k x => forget (k.value E x)
  | best k l => forget (k.best E l)
  | scoring k r => forget (k.scoring E r)
  | bestRoute k l => forget (k.best E l)
  | sorted k l => forget (k.sorted E l)
  | nbest k n l => forget (k.nbest E n l)
  | planningFeasible l => forget (Jinete.planningFeasible E l)
  | coverageRate job l => forget (Jinete.coverageRate E job l)
  | optimizeWith k l => forget (Jinete.optimizeWith E k l)

/-- One question after the other; exceptions are caught. -/
def askAll (E : Env) : List Query → Heap → Heap
  | [], h => h
  | q :: l, h => askAll E l (q.ask E h).2

theorem Silent.forget {α : Type} {m : M α} (h : Silent m) : Silent (forget m) := bind h fun _ => pure _

theorem Query.silent (E : Env) (q : Query) : Silent (q.ask E) := by
  cases q
  · exact (Silent.arrival E _).forget
  · exact (Silent.departure E _).forget
  · exact (Silent.starting E _).forget
  · exact (Silent.transitTime E _).forget
  · exact (Silent.waitingTime E _).forget
  · exact (Silent.capacity E _).forget
  · exact (Silent.allPrevious _).forget
  · exact (Silent.stopFeasible E _).forget
  · exact (Silent.pickupTime E _).forget
  · exact (Silent.deliveryTime E _).forget
  · exact (Silent.ptDuration E _).forget
  · exact (Silent.ptFeasible E _).forget
  · exact (Silent.firstStop _).forget
  · exact (Silent.lastStop _).forget
  · exact (Silent.routeDuration E _).forget
  · exact (Silent.routeTransitTime E _).forget
  · exact (Silent.routeWaitingTime E _).forget
  · exact (Silent.feasiblePlannedTrips E _).forget
  · exact (Silent.routeFeasible E _).forget
  · exact (Silent.objective E _ _).forget
  · exact (Silent.best E _ _).forget
  · exact (Silent.scoring E _ _).forget
  · exact (Silent.criterionBest E _ _).forget
  · exact (Silent.criterionSorted E _ _).forget
  · exact (Silent.criterionNbest E _ _ _).forget
  · exact (Silent.planningFeasible E _).forget
  · exact (Silent.coverageRate E _ _).forget
  · exact (Silent.optimizeWith E _ _).forget

/-- **C74.** Whatever the state of the objects, consistent or not, and whatever is asked, in whatever order, answered or
refused with an exception: no attribute of any object changes and no memoised verdict is overturned. -/
theorem C74_asking_changes_nothing (E : Env) (l : List Query) (h : Heap) : OnlyMemos h (askAll E l h) := by
  induction l generalizing h with
  | nil => exact OnlyMemos.refl h
  | cons q l ih => exact (q.silent E h).trans (ih _)

/-- Asking does something: times and verdicts are memoised. -/
example : zigzag0.arr 1 = none ∧ (askAll zigzagEnv [.routeFeasible 0] zigzag0).arr 1 ≠ none ∧
    zigzag0.rfeas 0 = none ∧ (askAll zigzagEnv [.routeFeasible 0] zigzag0).rfeas 0 = some true := by decide +kernel

end Jinete
