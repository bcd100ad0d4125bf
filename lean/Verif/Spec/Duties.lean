import Verif.Spec.RouteState

/-!
# Specification: what a route serves, and what inserting a trip means
-/

set_option autoImplicit false

namespace Jinete

/-- What is done at a stop, regardless of time: where it is and which trips are picked up and dropped. -/
structure Duty where
  pos : Pos
  picks : List Nat
  drops : List Nat
  deriving DecidableEq

/-- The duty of a visit. -/
def Visit.duty (v : Visit) : Duty := ⟨v.pos, v.picks, v.drops⟩

/-- The duties along a route. -/
def duties (c : Core) (r : Nat) : List Duty := (itinerary c r).map Visit.duty

/-- Picking trip `t` up. -/
def pickDuty (E : Env) (t : Nat) : Duty := ⟨(E.trip t).origin.position, [t], []⟩

/-- Dropping trip `t`. -/
def dropDuty (E : Env) (t : Nat) : Duty := ⟨(E.trip t).destination.position, [], [t]⟩

/-- The duties with a pickup of `t` right after number `i` and its delivery before number `j`. -/
def withTrip (E : Env) (t i j : Nat) (l : List Duty) : List Duty :=
  l.take (i + 1) ++ pickDuty E t :: ((l.take j).drop (i + 1) ++ dropDuty E t :: l.drop j)

/-- The visits with a pickup of `t` right after number `i` and its delivery before number `j`, both as early as
possible. -/
def withVisits (E : Env) (t i j : Nat) (l : List Visit) : List Visit :=
  l.take (i + 1) ++ ⟨(E.trip t).origin.position, none, [t], []⟩ ::
    ((l.take j).drop (i + 1) ++ ⟨(E.trip t).destination.position, none, [], [t]⟩ :: l.drop j)

/-- How long the vehicle waits at the second visit. -/
def firstWait (E : Env) (veh : Vehicle) (l : List Visit) : ℚ :=
  match vehicleTimetable E veh l with
  | _ :: y :: _ => y.start - y.arr
  | _ => 0

/-- The visits with the wait at the second one, if any, as requested start of the first one. -/
def postponed (E : Env) (veh : Vehicle) (l : List Visit) : List Visit :=
  if firstWait E veh l = 0 then l
  else match l with
    | [] => []
    | v :: vs => { v with request := some (firstWait E veh l) } :: vs

/-- The trips served along a route. -/
def tripsOf (c : Core) (r : Nat) : List Nat := (itinerary c r).flatMap Visit.picks

end Jinete
