import Verif.Spec.Contest

/-!
# Lines of a submission, driven at the contest (C140)
-/

set_option autoImplicit false

namespace Jinete

/-- A vehicle that is free at `(x, y)` at time `t` and drives its rides as the contest prescribes starts each by the time given as its latest
finish and can then return to `(0, 0)` by the end `T`; all up to `slack`. -/
def ReturnsHome (T slack : ℚ) : ℚ → ℚ → ℚ → List ContestRide → Prop
  | x, y, t, [] => t + grid x y 0 0 ≤ T + slack
  | x, y, t, r :: rs => r.startAt x y t ≤ r.latest + slack ∧ ReturnsHome T slack r.finishX r.finishY (r.startAt x y t + r.distance) rs

/-- Every number in the data is a whole number. -/
def Whole (data : Rows) : Prop := ∀ row ∈ data, ∀ x ∈ row, ∃ z : ℤ, x = z

/-- The total distance of rides. -/
def totalDistance (data : Rows) (ks : List Nat) : ℚ := (ks.map fun k => (contestRide data k).distance).sum

end Jinete
