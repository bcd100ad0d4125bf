import Verif.Model.Euclidean
import Verif.Model.Surface
import Mathlib.Data.Nat.Sqrt
import Mathlib.Algebra.Order.Floor.Semiring

/-!
# Specification: how well squares are computed
-/

set_option autoImplicit false

namespace Jinete

/-- Half a unit of the last of 53 binary digits, relative to the number. -/
def halfUnit : ℚ := 1 / 2 ^ 53

/-- What is assumed of `pow(x, 2)`: the error is at most that of two roundings, and the sign of `x` does not matter.
(A `pow` whose result is one of the two doubles beside the square is good enough.) -/
structure SquaresWell (square : ℚ → ℚ) : Prop where
  low : ∀ x, (1 - halfUnit) ^ 2 * x ^ 2 ≤ square x
  high : ∀ x, square x ≤ (1 + halfUnit) ^ 2 * x ^ 2
  even : ∀ x, square (-x) = square x

/-- Euclidean distances on a grid of width `2⁻ᵏ`: the largest multiple of it not above the distance. -/
def gridEuclidean (k : ℕ) (a b : Pos) : ℚ := (Nat.sqrt ⌊euclideanSq a b * 4 ^ k⌋₊ : ℚ) / 2 ^ k

end Jinete
