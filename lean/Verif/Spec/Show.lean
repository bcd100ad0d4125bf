import Verif.Spec.Columns
import Verif.Spec.File

/-!
# Specification: literals in texts
-/

set_option autoImplicit false

namespace Jinete

/-- Between quotes `q`, `w` stands for `t`. -/
inductive LiteralBody (q : Char) : Text → Text → Prop
  | done : LiteralBody q [] []
  | plain {c t w} : c ≠ q → c ≠ '\\' → LiteralBody q t w → LiteralBody q (c :: t) (c :: w)
  | escaped {c t w} : c = q ∨ c = '\\' → LiteralBody q t w → LiteralBody q (c :: t) ('\\' :: c :: w)

/-- `w` is a string literal which stands for `t`. -/
def StringLiteral (t w : Text) : Prop := ∃ q b, (q = '\'' ∨ q = '"') ∧ LiteralBody q t b ∧ w = [q] ++ b ++ [q]

/-- `w` is a tuple of things that stand for the elements of `l`. -/
def TupleLiteral {α : Type} (R : α → Text → Prop) (l : List α) (w : Text) : Prop :=
  ∃ ws, List.Forall₂ R l ws ∧ match ws with
    | [] => w = ['(', ')']
    | [x] => w = ['('] ++ x ++ [',', ')']
    | x :: y :: ws => w = ['('] ++ x ++ ((y :: ws).map fun z => [',', ' '] ++ z).flatten ++ [')']

/-- `w` lists these names. -/
def ListsNames (names : List Text) (w : Text) : Prop := TupleLiteral StringLiteral names w

/-- `w` is the number, or the word for no bound. -/
def BoundLiteral : Bound → Text → Prop
  | .fin q, w => NumberText w q
  | .inf, w => w = "inf".toList

/-- `w` is the tuple of these coordinates. -/
def CoordinatesLiteral (p : Pos) (w : Text) : Prop := TupleLiteral (fun q w => NumberText w q) p w

/-- `w` tells where, when and for how long. -/
def ServiceLiteral (s : Service) (w : Text) : Prop :=
  ∃ p a b d, CoordinatesLiteral s.position p ∧ NumberText a s.earliest ∧ BoundLiteral s.latest b ∧ NumberText d s.duration ∧
    w = "(('position', GeometricPosition(coordinates=".toList ++ p ++ ")), ('earliest', ".toList ++ a ++ "), ('latest', ".toList ++ b ++
      "), ('duration', ".toList ++ d ++ "))".toList

/-- `w` is the text of the vehicle. -/
def VehicleShown (v : LoadedVehicle) (w : Text) : Prop :=
  ∃ o d c t, ServiceLiteral v.vehicle.origin o ∧ ServiceLiteral v.vehicle.destination d ∧ NumberText c v.vehicle.capacity ∧ BoundLiteral v.vehicle.timeout t ∧
    w = "Vehicle(identifier=".toList ++ v.identifier ++ ", origin=".toList ++ o ++ ", destination=".toList ++ d ++ ", capacity=".toList ++ c ++
      ", timeout=".toList ++ t ++ ")".toList

/-- `w` is the text of the trip. -/
def TripShown (v : LoadedTrip) (w : Text) : Prop :=
  ∃ o d b c t, ServiceLiteral v.trip.origin o ∧ ServiceLiteral v.trip.destination d ∧ NumberText b v.trip.onTimeBonus ∧ NumberText c v.trip.capacity ∧
    BoundLiteral v.trip.timeout t ∧
    w = "Trip(identifier=".toList ++ v.identifier ++ ", origin=".toList ++ o ++ ", destination=".toList ++ d ++ ", on_time_bonus=".toList ++ b ++
      ", capacity=".toList ++ c ++ ", timeout=".toList ++ t ++ ")".toList

/-- `w` is the text of the service: its position is rounded. -/
def ServiceShown (s : Service) (w : Text) : Prop :=
  ∃ p a b d, PositionWord s.position p ∧ NumberText a s.earliest ∧ BoundLiteral s.latest b ∧ NumberText d s.duration ∧
    w = "Service(position=".toList ++ p ++ ", earliest=".toList ++ a ++ ", latest=".toList ++ b ++ ", duration=".toList ++ d ++ ")".toList

/-- `w` is the text of a route of the vehicle with this name, which makes stops with these names. -/
def RouteShown (vehicle : Text) (stops : List Text) (w : Text) : Prop :=
  ∃ u, ListsNames stops u ∧ w = "Route(vehicle_identifier=".toList ++ vehicle ++ ", stops_identifiers=".toList ++ u ++ ")".toList

end Jinete
