import Verif.Model.Options
import Verif.Spec.Whole

/-!
# What keyword arguments should mean
-/

set_option autoImplicit false

namespace Jinete

/-- The insertion strategies that can be asked for. -/
inductive Inserting
  | intensive | tail | sampling
  deriving DecidableEq

/-- The class of a strategy. -/
def Inserting.cls : Inserting → ClassName
  | .intensive => .intensive
  | .tail => .tail
  | .sampling => .sampling

/-- What can be chosen for an insertion. -/
structure InsertionArgs where
  strategy : Inserting
  criterion : Criterion
  neighborhood : Option Nat
  randomized : Nat
  onlyFeasible : Bool

/-- The argument is not given, or given as `None`. -/
def Absent (a : Option Arg) : Prop := a = none ∨ a = some .none

/-- The keyword arguments ask for these choices; for what is not given, the documented defaults apply: sampling, the earliest last
departure, 24 trips, one candidate, feasible routes only. No other iterator is asked for, and nothing the strategy or the criterion
would not take. Any further arguments may be there. -/
structure InsertionArgs.In (A : InsertionArgs) (o : Options) : Prop where
  strategy : o "strategy_cls" = some (.cls A.strategy.cls) ∨ Absent (o "strategy_cls") ∧ A.strategy = .sampling
  criterion : o "criterion_cls" = some (.cls (.criterion A.criterion)) ∨ Absent (o "criterion_cls") ∧ A.criterion = .earliestLastDeparture
  neighborhood : (∃ n : Nat, o "neighborhood_max_size" = some (.int n) ∧ A.neighborhood = some n) ∨
    o "neighborhood_max_size" = some .none ∧ A.neighborhood = none ∨ o "neighborhood_max_size" = none ∧ A.neighborhood = some 24
  randomized : o "randomized_size" = some (.int A.randomized) ∨ o "randomized_size" = none ∧ A.randomized = 1
  onlyFeasible : o "only_feasible" = some (.bool A.onlyFeasible) ∨ o "only_feasible" = none ∧ A.onlyFeasible = true
  iterator : o "iterator_cls" = some (.cls .ranking) ∨ Absent (o "iterator_cls")
  name : o "name" = none
  direction : o "direction" = none
  routes : o "routes" = none

/-- The strategy, where sampling draws from a generator that always has the default seed. -/
def Inserting.strategy (C : Chance) (h : Heap) : Inserting → Strategy
  | .intensive => .intensive
  | .tail => .tail
  | .sampling => .sampling 128 C.samples (C.stream (.int 56) h)

/-- What an insertion with these choices and this seed works with. -/
def InsertionArgs.settings (A : InsertionArgs) (E : Env) (C : Chance) (fleet job : List Nat) (seed : Arg) (h : Heap) : Settings where
  env := E
  fleet := fleet
  job := job
  criterion := A.criterion
  strategy := A.strategy.strategy C h
  onlyFeasible := A.onlyFeasible
  neighborhood := A.neighborhood
  randomized := A.randomized
  order := C.order h
  choice := C.choice seed h

/-- Chance as Python allows it: sets are iterated once over each element, `choice` takes an element, `randint` stays in its
range, and local search samples pairs of positions. -/
structure Chance.Fair (C : Chance) : Prop where
  order : ∀ h k l, (C.order h k l).Perm l
  choice : ∀ a h k n, 0 < n → C.choice a h k n < n
  stream : ∀ a h m k lo hi, lo ≤ hi → lo ≤ C.stream a h m k lo hi ∧ C.stream a h m k lo hi ≤ hi
  draws : ∀ h, (C.draws h).OK

/-- Keyword arguments of GRASP as it is meant to be used: a fleet and a job, dictionaries `first` and `search` for its two phases
(empty ones if not given), a number of episodes, nothing that changes which algorithms are run or where they start. `first` asks for
insertions with the choices `A`; `search` has a threshold for local search. -/
structure GraspCall (o first search : Options) (fleet job : List Nat) (A : InsertionArgs) (episodes firstEpisodes threshold : Nat) : Prop where
  hasFleet : o "fleet" = some (.fleet fleet)
  hasJob : o "job" = some (.job job)
  hasFirst : o "first_solution_kwargs" = some (.options first) ∨ Absent (o "first_solution_kwargs") ∧ first = .none
  hasSearch : o "local_search_kwargs" = some (.options search) ∨ Absent (o "local_search_kwargs") ∧ search = .none
  hasEpisodes : o "episodes" = some (.int episodes) ∨ o "episodes" = none ∧ episodes = 3
  outer : ∀ x ∈ ["algorithm_cls", "algorithms_cls", "initial", "restart_mode"], o x = none
  hasFirstEpisodes : first "episodes" = some (.int firstEpisodes) ∨ first "episodes" = none ∧ firstEpisodes = 3
  firstArgs : A.In first
  firstPlain : ∀ x ∈ ["fleet", "job", "initial", "seed", "algorithm_cls", "restart_mode"], first x = none
  hasThreshold : search "no_improvement_threshold" = some (.int threshold) ∨ search "no_improvement_threshold" = none ∧ threshold = 1
  searchPlain : ∀ x ∈ ["fleet", "job", "initial", "seed", "algorithms_cls"], search x = none

/-- The same, where `search` asks for insertions with the choices `B` after local search. -/
structure GraspArgs (o first search : Options) (fleet job : List Nat) (A B : InsertionArgs) (episodes firstEpisodes threshold : Nat) : Prop
    extends GraspCall o first search fleet job A episodes firstEpisodes threshold where
  searchArgs : B.In search

/-- The class is one of a local search strategy. -/
def ClassName.isSearch : ClassName → Bool
  | .reallocation | .twoOpt | .oneShift => true
  | _ => false

end Jinete
