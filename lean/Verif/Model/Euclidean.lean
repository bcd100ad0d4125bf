import Verif.Model.Rounded

/-!
# Euclidean distances in doubles
-/

set_option autoImplicit false

namespace Jinete

/-- `math.sqrt` of a number that is not negative, with the result rounded to 53 binary digits, ties to the even last digit, as
IEEE 754 prescribes; the range of exponents is not bounded. The number is scaled by a power of four so that its root has
53 digits before the point. -/
def sqrtDouble (q : ℚ) : ℚ :=
  let e := Int.log 2 q / 2 - 52
  let x := q / 4 ^ e
  let m := Nat.sqrt ⌊x⌋₊
  (if x < (m + 1 / 2) ^ 2 ∨ x = (m + 1 / 2) ^ 2 ∧ m % 2 = 0 then (m : ℚ) else m + 1) * 2 ^ e

/-- `DistanceMetric._euclidean_distance` in doubles, jinete/models/constants.py:80-82:
`sqrt(sum(pow(a_i - b_i, 2) for a_i, b_i in zip(a, b)))`, added from the left (as `sum` does before
Python 3.12, which compensates errors). `square` is what `pow(x, 2)` returns, which
the mathematical library need not round correctly. -/
def euclideanRounded (square : ℚ → ℚ) (a b : Pos) : ℚ :=
  sqrtDouble (((a.zip b).map fun p => square (roundDouble (p.1 - p.2))).foldl (fun s x => roundDouble (s + x)) 0)

/-- A correctly rounded square. -/
def squareDouble (x : ℚ) : ℚ := roundDouble (x ^ 2)

end Jinete
