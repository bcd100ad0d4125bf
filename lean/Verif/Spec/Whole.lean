import Verif.Model.Algorithms
import Verif.Spec.LocalSearch
import Verif.Spec.Insertion
import Verif.Spec.Reach

/-!
# Whole algorithms: what is assumed of their random draws, and what plannings they should yield
-/

set_option autoImplicit false

namespace Jinete

/-- Draws as the theorems ask: sets are iterated in some order, sampled pairs are in order and in range. -/
structure Draws.OK (d : Draws) : Prop where
  order : ∀ l, (d.order l).Perm l
  pairs : GoodDraws d.pairs

/-- The settings an insertion works with, for a given problem. -/
structure Settings.Of (S : Settings) (E : Env) (fleet job : List Nat) : Prop where
  env : S.env = E
  fleet : S.fleet = fleet
  job : S.job = job
  fair : Fair S
  randomized : 0 < S.randomized

/-- The routes are a planning for a fleet and a job: one sound route per vehicle; trips of the job, each at most once; no
visit serves two trips. -/
structure PlanningFor (E : Env) (fleet job : List Nat) (h : Heap) (rs : List Nat) : Prop where
  sound : ∀ r ∈ rs, Sound E h r
  vehicles : (rs.map fun r => (h.core.route r).vehicle).Perm fleet
  trips : (rs.flatMap (tripsOf h.core)).Nodup
  job : ∀ t ∈ rs.flatMap (tripsOf h.core), t ∈ job
  single : ∀ r ∈ rs, SingleVisits (duties h.core r)

/-- What a vehicle should do: start at its origin and end at its destination, serving nothing there, and at each visit in
between pick up one trip at the trip's origin or drop one at the trip's destination. -/
def Proper (E : Env) (v : Nat) (l : List Duty) : Prop :=
  ∃ mid, l = ⟨(E.vehicle v).origin.position, [], []⟩ :: (mid ++ [⟨(E.vehicle v).destination.position, [], []⟩]) ∧
    ∀ d ∈ mid, ∃ t, d = pickDuty E t ∨ d = dropDuty E t

/-- All routes are as they should be. -/
def ProperRoutes (E : Env) (h : Heap) (rs : List Nat) : Prop := ∀ r ∈ rs, Proper E (h.core.route r).vehicle (duties h.core r)

/-- Every route serves nothing or meets the constraints, apart from durations of routes, closing times when its visits are
served as soon as possible. -/
def ServesLoosely (E : Env) (h : Heap) (rs : List Nat) : Prop :=
  ∀ r ∈ rs, tripsOf h.core r = [] ∨ LooselyFeasible E (planOf E h.core r).1 (planOf E h.core r).2

/-- Every route serves nothing or meets all constraints. -/
def ServesFeasibly (E : Env) (h : Heap) (rs : List Nat) : Prop :=
  ∀ r ∈ rs, tripsOf h.core r = [] ∨ FeasibleItinerary E (planOf E h.core r).1 (planOf E h.core r).2

end Jinete
