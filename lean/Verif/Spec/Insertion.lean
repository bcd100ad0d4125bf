import Verif.Model.Iterator
import Verif.Spec.Duties
import Verif.Spec.Value

/-!
# Specification: insertion iterators and the insertion algorithm
-/

set_option autoImplicit false

namespace Jinete

/-- The questions are answered as Python does: a set is iterated once over each element, `random.choice` takes an
element, `random.randint(lo, hi)` stays in its range. Nothing else is assumed of the answers. -/
structure Fair (S : Settings) : Prop where
  order : ∀ k l, (S.order k l).Perm l
  choice : ∀ k n, 0 < n → S.choice k n < n
  rnd : ∀ count fuel rnd, S.strategy = .sampling count fuel rnd →
    ∀ m k lo hi, lo ≤ hi → lo ≤ rnd m k lo hi ∧ rnd m k lo hi ≤ hi

/-- The sampling loop always ends within its fuel, for a route with any number of stops; the other strategies have no such
loop. -/
def Strategy.Ends (st : Strategy) : Prop :=
  ∀ count fuel rnd, st = .sampling count fuel rnd → ∀ k n, 2 ≤ n → (sampleIndexPairs n count (rnd k) fuel).isSome

/-- At least one pair of positions is tried: the sampling strategy is asked for one, the others always try some. -/
def Strategy.Tries (st : Strategy) : Prop := ∀ count fuel rnd, st = .sampling count fuel rnd → 0 < count

/-- A job and a fleet: sets of trips and vehicles. -/
structure Clean (S : Settings) : Prop where
  fleet : S.fleet.Nodup
  job : S.job.Nodup

/-- One well formed route per vehicle, and each trip of the job either pending or served, once. -/
structure Accounts (S : Settings) (s : IterState) : Prop where
  vehicles : (s.container.map Prod.fst).Perm S.fleet
  owner : ∀ e ∈ s.container, (s.heap.core.route e.2).vehicle = e.1
  wf : ∀ e ∈ s.container, WellFormed s.heap.core e.2
  trips : (s.pending ++ s.container.flatMap fun e => tripsOf s.heap.core e.2).Perm S.job

/-- Routes an iterator can start from: well formed, with memoised times that agree, one per vehicle, serving different
trips of the job. -/
structure Startable (S : Settings) (h : Heap) (rs : List Nat) : Prop where
  sound : ∀ r ∈ rs, Sound S.env h r
  vehicles : (rs.map fun r => (h.core.route r).vehicle).Perm S.fleet
  trips : (rs.flatMap (tripsOf h.core)).Nodup
  job : ∀ t ∈ rs.flatMap (tripsOf h.core), t ∈ S.job

/-- The states of a ranking iterator from its construction on, after any number of `next` and `_set_route` of the
route that `next` returned, which says it is feasible. -/
inductive RankedRun (S : Settings) (h : Heap) (initial : Option (List Nat)) : IterState → Prop
  | init {s : IterState} : rankingInit S initial (.initial h) = (.ok (), s) → RankedRun S h initial s
  | step {s s1 s2 s3 : IterState} {r : Nat} : RankedRun S h initial s → nextRanked S s = (.ok r, s1) →
      onHeap (routeFeasible S.env r) s1 = (.ok true, s2) → setRoute (markRanked S) r s2 = (.ok (), s3) →
      RankedRun S h initial s3

/-- The states of a stateless iterator from its construction on, after any number of `next` and `_set_route` of the
route that `next` returned, which says it is feasible. -/
inductive StatelessRun (S : Settings) (h : Heap) (initial : Option (List Nat)) : IterState → Prop
  | init {s : IterState} : iteratorInit S initial (.initial h) = (.ok (), s) → StatelessRun S h initial s
  | step {s s1 s2 s3 : IterState} {r : Nat} : StatelessRun S h initial s → nextStateless S s = (.ok r, s1) →
      onHeap (routeFeasible S.env r) s1 = (.ok true, s2) → setRoute markStateless r s2 = (.ok (), s3) →
      StatelessRun S h initial s3

/-- What the route of vehicle `v` visits and serves when an iterator starts: nothing between the ends, or what the route
given for that vehicle does. -/
def StartDuties (S : Settings) (h : Heap) (initial : Option (List Nat)) (v : Nat) (ds : List Duty) : Prop :=
  match initial with
  | none => ds = [⟨(S.env.vehicle v).origin.position, [], []⟩, ⟨(S.env.vehicle v).destination.position, [], []⟩]
  | some rs => ∃ r ∈ rs, (h.core.route r).vehicle = v ∧ ds = duties h.core r

/-- The duties of a route after any number of trips were inserted: nothing is dropped or reordered. -/
inductive Grown (E : Env) (ds : List Duty) : List Duty → Prop
  | refl : Grown E ds ds
  | insert {ds' : List Duty} {t i j : Nat} : Grown E ds ds' → i < j → j < ds'.length → Grown E ds (withTrip E t i j ds')

end Jinete
