import Verif.Model.Loader

/-!
# Specification: problem instances in files

What the rows of an instance file mean, independently of how they are read. A Cordeau-Laporte file has a
header `m q T Q L ...` (vehicles, requests' rows, maximum route duration, capacity, maximum ride time), a
depot row and the request rows `id x y d q e l ...`; origin `k` is in request row `k`, its destination in
row `k + n`. A HashCode file has a header `R C F N B T ...` and one row `x1 y1 x2 y2 e l` per ride.
-/

set_option autoImplicit false

namespace Jinete

/-- A request row `id x y d q e l ...`. -/
structure RequestRow (row : List ℚ) (x y d q e l : ℚ) : Prop where
  shape : ∃ id rest, row = id :: x :: y :: d :: q :: e :: l :: rest

/-- A service takes place where, when and for as long as a request row says. -/
def ServesRow (row : List ℚ) (s : Service) : Prop :=
  ∃ x y d q e l, RequestRow row x y d q e l ∧ s.position = [x, y] ∧ s.earliest = e ∧ s.latest = .fin l ∧ s.duration = d

/-- The load of a request row. -/
def RowLoad (row : List ℚ) (q : ℚ) : Prop := ∃ x y d e l, RequestRow row x y d q e l

/-- Well-shaped Cordeau-Laporte data with `m` vehicles and `n` requests, route duration `T`, capacity `Q` and
ride time `L`, the depot at `(dx, dy)`. The header may count one row too many (`2n + 1` instead of `2n`). -/
structure CordeauData (data : Rows) (m n : Nat) (T Q L dx dy : ℚ) : Prop where
  header : ∃ c rest, data[0]? = some ((m : ℚ) :: c :: T :: Q :: L :: rest) ∧ (2 * n : ℚ) ≤ c ∧ c < 2 * n + 2
  depot : ∃ id rest, data[1]? = some (id :: dx :: dy :: rest)
  requests : ∀ k < 2 * n, ∃ row x y d q e l, data[k + 2]? = some row ∧ RequestRow row x y d q e l
  loads : ∀ k < n, ∀ row row' q q', data[k + 2]? = some row → data[k + 2 + n]? = some row' →
    RowLoad row q → RowLoad row' q' → q = -q'

/-- A ride row `x1 y1 x2 y2 e l`: the ride starts at `(x1, y1)` not before `e` and should be finished at
`(x2, y2)` by `l`. -/
structure RideRow (row : List ℚ) (x1 y1 x2 y2 e l : ℚ) : Prop where
  shape : row = [x1, y1, x2, y2, e, l]

/-- Well-shaped HashCode data with `f` vehicles, `n` rides, bonus `b` and horizon `T`. -/
structure HashCodeData (data : Rows) (f n : Nat) (b T : ℚ) : Prop where
  header : ∃ r c count rest, data[0]? = some (r :: c :: (f : ℚ) :: count :: b :: T :: rest)
  length : data.length = n + 1
  rides : ∀ k < n, ∃ row x1 y1 x2 y2 e l, data[k + 1]? = some row ∧ RideRow row x1 y1 x2 y2 e l

/-- Read a number in decimal notation. -/
def readNat (t : Text) : Nat := t.foldl (fun a c => 10 * a + (c.toNat - 48)) 0

end Jinete
