import Verif.Basic

/-!
# jinete/utils

jinete/utils/collections.py and jinete/utils/random.py.
-/

set_option autoImplicit false

namespace Jinete

/-- The comprehension of `remove_duplicates`, jinete/utils/collections.py:29: `seen` is the set of
elements met so far; `x in seen or seen_add(x)` is falsy exactly when `x` is new, and then adds it. -/
def removeDuplicatesAux {E : Type} [DecidableEq E] (seen : List E) : List E → List E
  | [] => []
  | x :: l => if x ∈ seen then removeDuplicatesAux seen l else x :: removeDuplicatesAux (x :: seen) l

/-- `remove_duplicates`, jinete/utils/collections.py:21-29. -/
def removeDuplicates {E : Type} [DecidableEq E] (seq : List E) : List E := removeDuplicatesAux [] seq

/-- `reduce(op.mul, range(n, n - r, -1), 1)`, jinete/utils/random.py:23: `n * (n-1) * ... * (n-r+1)`
(empty product when `r <= 0`). -/
def mulDown (n : Int) : Nat → Int
  | 0 => 1
  | r + 1 => mulDown n r * (n - r)

/-- `reduce(op.mul, range(1, r + 1), 1)`, jinete/utils/random.py:24. -/
def mulUp : Nat → Int
  | 0 => 1
  | r + 1 => mulUp r * (r + 1)

/-- `ncr`, jinete/utils/random.py:15-25. Python integers; `range` with non-positive length is empty;
`//` is floor division and the divisor is at least 1. -/
def ncr (n r : Int) : Int :=
  let r := min r (n - r)
  mulDown n r.toNat / mulUp r.toNat

/-- `itertools.combinations(range(n), 2)`: pairs `(i, j)` with `i < j` in lexicographic order. -/
def combinations2 (n : Nat) : List (Nat × Nat) :=
  (List.range n).flatMap fun i => ((List.range n).filter fun j => i < j).map fun j => (i, j)

/-- The sampling loop of `sample_index_pairs`, jinete/utils/random.py:38-44. `rnd k lo hi` is the
result of the `k`-th call of `random.randint(lo, hi)`. The loop may not terminate on an unlucky
stream, so it runs with fuel; `none` means it has not finished.
The set is a list, the last pair first; every other order arises from another stream (`C25_every_sample`). -/
def samplePairsLoop (n count : Nat) (rnd : Nat → Nat → Nat → Nat) :
    (fuel : Nat) → (tick : Nat) → (acc : List (Nat × Nat)) → Option (List (Nat × Nat))
  | 0, _, acc => if acc.length < count then none else some acc
  | fuel + 1, tick, acc =>
    if acc.length < count then
      let i := rnd tick 0 (n - 2)
      let j := rnd (tick + 1) (i + 1) (n - 1)
      samplePairsLoop n count rnd fuel (tick + 2) (if (i, j) ∈ acc then acc else (i, j) :: acc)
    else some acc

/-- `sample_index_pairs`, jinete/utils/random.py:28-44. -/
def sampleIndexPairs (n count : Nat) (rnd : Nat → Nat → Nat → Nat) (fuel : Nat) :
    Option (List (Nat × Nat)) :=
  if ncr n 2 ≤ count then some (combinations2 n)
  else samplePairsLoop n count rnd fuel 0 []

end Jinete
