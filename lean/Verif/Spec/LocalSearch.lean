import Verif.Spec.Value
import Verif.Spec.Duties

/-!
# Specification: what local search strategies may do to a planning
-/

set_option autoImplicit false

namespace Jinete

/-- A list with the entries number `i` to `j` in reverse order; the last entry stays last. -/
def reversed {α : Type} (i j : Nat) (l : List α) : List α :=
  l.take i ++ ((l.dropLast.take (j + 1)).drop i).reverse ++ ((l.dropLast.drop i).drop (j + 1 - i) ++ l.drop (l.length - 1))

/-- Some trip is picked up and dropped among the visits number `i` to `j`. -/
def TripInside (i j : Nat) (l : List Visit) : Prop :=
  ∃ v ∈ (l.take (j + 1)).drop i, ∃ w ∈ (l.take (j + 1)).drop i, ∃ t, t ∈ v.picks ∧ t ∈ w.drops

/-- Every trip is picked up at a visit before the one at which it is dropped. -/
def PicksFirst (l : List Visit) : Prop :=
  ∀ a v b, l = a ++ v :: b → ∀ t ∈ v.drops, ∃ u ∈ a, t ∈ u.picks

/-- Sound routes of different vehicles that serve different trips. -/
structure OnePerVehicle (E : Env) (h : Heap) (rs : List Nat) : Prop where
  sound : ∀ r ∈ rs, Sound E h r
  vehicles : (rs.map fun r => (h.core.route r).vehicle).Nodup
  trips : (rs.flatMap (tripsOf h.core)).Nodup

/-- The routes `l` in `c'` employ the same vehicles and serve the same trips as `rs` in `c`. -/
structure SameWork (c : Core) (rs : List Nat) (c' : Core) (l : List Nat) : Prop where
  vehicles : (l.map fun r => (c'.route r).vehicle).Perm (rs.map fun r => (c.route r).vehicle)
  trips : (l.flatMap (tripsOf c')).Perm (rs.flatMap (tripsOf c))

/-- Each visit serves at most one trip and the last one serves none. -/
def SingleVisits (l : List Duty) : Prop :=
  (∀ d ∈ l, d.picks.length + d.drops.length ≤ 1) ∧ ∀ d ∈ l.getLast?, d.picks = [] ∧ d.drops = []

/-- The duties without those that serve trip `t`. -/
def withoutTrip (t : Nat) (l : List Duty) : List Duty := l.filter fun d => decide (t ∉ d.picks ∧ t ∉ d.drops)

/-- The last component of what an objective measures of a planning. -/
def lastComponent (E : Env) (k : Objective) (l : List (Vehicle × List Visit)) : ℚ := (planningValue E k l).getLastD 0

/-- Every call of `draw` for at least two positions yields index pairs in order and in range. -/
def GoodDraws (draw : Nat → Nat → Option (List (Nat × Nat))) : Prop :=
  ∀ c n, 2 ≤ n → ∃ ps, draw c n = some ps ∧ ∀ x ∈ ps, x.1 < x.2 ∧ x.2 < n

/-- Trip `t` of route `o` was moved to route `d`, between positions `i` and `j`; all other routes serve what they served. -/
structure Reallocated (E : Env) (c : Core) (rs : List Nat) (c' : Core) (l : List Nat) (o d t i j : Nat) : Prop where
  origin : o ∈ rs
  destination : d ∈ rs
  differ : o ≠ d
  trip : t ∈ tripsOf c o
  order : i < j
  range : j < (duties c d).length
  from_ : ∃ q ∈ l, (c'.route q).vehicle = (c.route o).vehicle ∧ duties c' q = withoutTrip t (duties c o)
  to_ : ∃ q ∈ l, (c'.route q).vehicle = (c.route d).vehicle ∧ duties c' q = withTrip E t i j (duties c d)
  rest : ∀ r ∈ rs, r ≠ o → r ≠ d → ∃ q ∈ l, (c'.route q).vehicle = (c.route r).vehicle ∧ duties c' q = duties c r

/-- The routes are left alone. -/
def LeftAlone (E : Env) (h h' : Heap) (rs : List Nat) : Prop :=
  ∀ r ∈ rs, Sound E h' r ∧ (h'.core.route r).vehicle = (h.core.route r).vehicle ∧ itinerary h'.core r = itinerary h.core r

end Jinete
