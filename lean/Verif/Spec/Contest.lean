import Verif.Spec.Storer

/-!
# Specification: the rules of Hash Code 2018 ("self-driving rides")

All vehicles start at `(0, 0)` at time 0. A vehicle takes the rides assigned to it in the given order: it drives to the start
of the ride, waits for the earliest start if need be, and drives to the finish. A ride that is finished by its latest finish
earns the distance between its start and its finish, and the bonus if it was started exactly at its earliest start; a ride
finished later earns nothing. A submission has one line per vehicle; no ride is assigned twice.
-/

set_option autoImplicit false

namespace Jinete

/-- A ride of the contest. -/
structure ContestRide where
  startX : ℚ
  startY : ℚ
  finishX : ℚ
  finishY : ℚ
  earliest : ℚ
  latest : ℚ
  deriving DecidableEq

/-- Ride number `k` of a data set (the first row is the header). -/
def contestRide (data : Rows) (k : Nat) : ContestRide :=
  match data[k + 1]? with
  | some [a, b, x, y, e, l] => ⟨a, b, x, y, e, l⟩
  | _ => ⟨0, 0, 0, 0, 0, 0⟩

/-- How far it is to drive in the grid. -/
def grid (a b x y : ℚ) : ℚ := |a - x| + |b - y|

/-- The distance of a ride. -/
def ContestRide.distance (r : ContestRide) : ℚ := grid r.startX r.startY r.finishX r.finishY

/-- When a vehicle that is free at `(x, y)` at time `t` starts a ride. -/
def ContestRide.startAt (r : ContestRide) (x y t : ℚ) : ℚ := max (t + grid x y r.startX r.startY) r.earliest

/-- What a vehicle that is free at `(x, y)` at time `t` earns with its rides, given the bonus for starting on time. -/
def contestEarned (bonus : ℚ) : ℚ → ℚ → ℚ → List ContestRide → ℚ
  | _, _, _, [] => 0
  | x, y, t, r :: rs =>
    (if r.startAt x y t + r.distance ≤ r.latest then r.distance + (if r.startAt x y t = r.earliest then bonus else 0) else 0) +
      contestEarned bonus r.finishX r.finishY (r.startAt x y t + r.distance) rs

/-- The score of a submission: the rides of each line, in order. -/
def contestScore (data : Rows) (bonus : ℚ) (lines : List (List Nat)) : ℚ :=
  (lines.map fun ks => contestEarned bonus 0 0 0 (ks.map (contestRide data))).sum

/-- The lines of a submission, as numbers of rides. -/
def submissionLines (text : Text) : List (List Nat) := (readOutput text).map fun x => x.2.map readNat

/-- A text is a submission for `n` rides that uses at most `f` vehicles: each line has the number of its rides and their
numbers in decimal notation; no ride occurs twice. -/
structure SubmissionFor (n f : Nat) (text : Text) : Prop where
  lines : (readOutput text).length ≤ f
  counts : ∀ x ∈ readOutput text, x.1 = x.2.length
  rides : ∀ x ∈ readOutput text, ∀ t ∈ x.2, ∃ k < n, t = decimal k
  once : ((readOutput text).flatMap Prod.snd).Nodup

/-- A valid submission has one line per vehicle. -/
structure ValidSubmission (n f : Nat) (text : Text) : Prop extends SubmissionFor n f text where
  vehicles : (readOutput text).length = f

end Jinete
