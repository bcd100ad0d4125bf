import Verif.Model.Objective

/-!
# Further properties of `Planning`

Generators are modelled by the list of what they yield.
-/

set_option autoImplicit false

namespace Jinete

/-- `Planning.vehicles`, jinete/models/plannings.py:61-64; `routes` in the order of the set. -/
def planningVehicles (c : Core) (routes : List Nat) : List Nat := routes.map fun r => (c.route r).vehicle

/-- `Planning.planned_trips`, jinete/models/plannings.py:66-69. -/
def planningPlannedTrips (c : Core) (routes : List Nat) : List Nat := routes.flatMap (routePlannedTrips c)

/-- `Planning.trips`, jinete/models/plannings.py:71-73. -/
def planningTrips (c : Core) (routes : List Nat) : List Nat := (planningPlannedTrips c routes).map fun p => (c.pt p).trip

end Jinete
