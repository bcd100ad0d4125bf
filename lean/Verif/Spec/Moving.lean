import Verif.Spec.Duties

/-!
# Specification: the same problem elsewhere and later

Every place is moved by a map `f` of positions, and every clock is put forward by `c`.
-/

set_option autoImplicit false

namespace Jinete

variable (f : Pos → Pos) (c : ℚ)

/-- A service at the new place, with its window `c` later. -/
def Service.carried (s : Service) : Service :=
  { s with
    position := f s.position
    earliest := s.earliest + c
    latest := s.latest.addQ c }

/-- A trip with both services carried over. -/
def Trip.carried (t : Trip) : Trip :=
  { t with
    origin := t.origin.carried f c
    destination := t.destination.carried f c }

/-- A vehicle with its depots carried over. -/
def Vehicle.carried (v : Vehicle) : Vehicle :=
  { v with
    origin := v.origin.carried f c
    destination? := v.destination?.map (Service.carried f c) }

/-- A visit at the new place, with its requested start `c` later. -/
def Visit.carried (v : Visit) : Visit :=
  { v with
    pos := f v.pos
    request := v.request.map (· + c) }

/-- The times of a visit, `c` later. -/
def Tm.later (x : Tm) : Tm := ⟨x.arr + c, x.start + c, x.dep + c⟩

/-- The second problem is the first one elsewhere and later: different places stay different, travel times are the same, no clock is put
back, and vehicles have no negative times to begin with. -/
structure Carried (E E' : Env) : Prop where
  inj : Function.Injective f
  later : 0 ≤ c
  opening : ∀ v, 0 ≤ (E.vehicle v).origin.earliest
  metric : ∀ a b, E'.metric (f a) (f b) = E.metric a b
  trip : ∀ t, E'.trip t = (E.trip t).carried f c
  vehicle : ∀ v, E'.vehicle v = (E.vehicle v).carried f c

end Jinete
