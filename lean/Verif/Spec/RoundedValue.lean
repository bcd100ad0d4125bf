import Verif.Spec.Itinerary
import Mathlib.Data.Real.Basic

/-!
# Trips and lengths of plannings

What C126 and C127 compare the values of `DialARideObjective` in floating point with.
-/

set_option autoImplicit false

namespace Jinete

/-- The legs of a tour from `p` through the positions: end and start of each. -/
def legs (p : Pos) : List Pos → List (Pos × Pos)
  | [] => []
  | q :: l => (q, p) :: legs q l

/-- The legs driven by a vehicle of depot `p` that makes the visits. -/
def tourLegs (p : Pos) (l : List Visit) : List (Pos × Pos) := legs p (l.map Visit.pos)

/-- The depots and visits of the routes of a planning. -/
abbrev Tours := List (Pos × List Visit)

/-- How many trips are picked up. -/
def Tours.served (T : Tours) : ℕ := (T.map fun x => (x.2.flatMap Visit.picks).length).sum

/-- How far the vehicles drive, as measured by `δ`. -/
def Tours.length (δ : Pos → Pos → ℝ) (T : Tours) : ℝ :=
  (T.map fun x => ((tourLegs x.1 x.2).map fun y => δ y.1 y.2).sum).sum

/-- No computed distance is negative, and none between the given places is off by more than the fraction `w` of the exact one. -/
structure MeasuresWithin (place : Pos → Prop) (dist : Pos → Pos → ℚ) (δ : Pos → Pos → ℝ) (w : ℝ) : Prop where
  nonneg : ∀ a b, 0 ≤ dist a b
  near : ∀ a b, place a → place b → |(dist a b : ℝ) - δ a b| ≤ w * δ a b

/-- The depots and the visits of the tours are among the places. -/
def Tours.Within (place : Pos → Prop) (T : Tours) : Prop := ∀ x ∈ T, place x.1 ∧ ∀ v ∈ x.2, place v.pos

/-- The relative error allowed to the length of a planning: `R` routes of at most `n` stops, distances within `w`. -/
noncomputable def lengthError (n R : ℕ) (w : ℝ) : ℝ := 2 * (n + R) / 2 ^ 53 + 2 * w

end Jinete
