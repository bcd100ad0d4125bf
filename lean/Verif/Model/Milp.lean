import Verif.Model.Trip

/-!
# The three-index linear model

jinete/algorithms/exacts/models/three_index.py. An assignment gives a rational value to every variable; a constraint
is a Boolean test of an assignment. The solver itself (PuLP) is not modelled: it may return any assignment.
-/

set_option autoImplicit false

namespace Jinete

/-- The instance: `self._vehicles` and `self._trips` (three_index.py:133-139, tuples of the sets in some order) and the
metric of the surface. The fleet must not be empty (`self._vehicles[0]` raises `IndexError`). -/
structure Milp where
  vehicles : List Vehicle
  trips : List Trip
  metric : Pos → Pos → ℚ

/-- Values of the variables `_x`, `_u`, `_w` (three_index.py:97-131). -/
structure Assignment where
  x : Nat → Nat → Nat → ℚ
  u : Nat → Nat → ℚ
  w : Nat → Nat → ℚ

/-- `BIG`, three_index.py:49. -/
def big : ℚ := 10000

namespace Milp

variable (P : Milp)

/-- `_n`, three_index.py:181-183. -/
abbrev n : Nat := P.trips.length

/-- `len(self._vehicles)`. -/
abbrev m : Nat := P.vehicles.length

/-- `_positions`, three_index.py:141-149: the origin depot of the first vehicle, the origins, the destinations, the
destination depot of the first vehicle. -/
def positions : List Pos :=
  match P.vehicles with
  | [] => []
  | v :: _ => [v.origin.position] ++ P.trips.map (fun t => t.origin.position) ++
      P.trips.map (fun t => t.destination.position) ++ [v.destination.position]

/-- `len(self._positions)`. -/
def len : Nat := P.positions.length

/-- `self._positions[i]`. -/
def pos (i : Nat) : Pos := P.positions.getD i []

/-- `_costs[i][j]`, three_index.py:151-163. -/
def cost (i j : Nat) : ℚ := if P.pos i = P.pos j then big else P.metric (P.pos i) (P.pos j)

/-- `self._positions[i].time_to(self._positions[j])`. -/
def travel (i j : Nat) : ℚ := P.metric (P.pos i) (P.pos j)

/-- `_pickups_indexer`, three_index.py:165-167. -/
def pickupsIdx : List Nat := List.range' 1 P.n

/-- `_nodes_indexer`, three_index.py:169-171. -/
def nodesIdx : List Nat := List.range' 1 (P.n * 2)

/-- `_routes_indexer`, three_index.py:173-175. -/
def routesIdx : List Nat := List.range P.m

/-- `_positions_indexer`, three_index.py:177-179. -/
def positionsIdx : List Nat := List.range P.len

/-- `_trip_by_position_idx`, three_index.py:185-188. The Python index `-1` is the last trip. -/
def tripAt (i : Nat) : Option Trip :=
  if i = 0 ∨ i = P.len - 1 then none
  else if i % P.n = 0 then P.trips[P.n - 1]? else P.trips[i % P.n - 1]?

/-- `_time_window_by_position_idx`, three_index.py:193-204; `none` stands for the exception. -/
def window (i : Nat) : Option (ℚ × Bound) :=
  match P.tripAt i with
  | none => some (0, .fin 1440)
  | some t =>
    if P.pos i = t.origin.position then some (t.originEarliest, t.originLatest P.metric)
    else if P.pos i = t.destination.position then some (t.destinationEarliest P.metric, t.destinationLatest)
    else none

/-- `_capacity_by_position_idx`, three_index.py:206-215. -/
def demand (i : Nat) : ℚ :=
  match P.tripAt i with
  | none => 0
  | some t => if (i : ℚ) < (P.len : ℚ) / 2 then t.capacity else t.capacity * (-1)

/-- `_load_time_by_position_idx`, three_index.py:217-221. -/
def loadTime (i : Nat) : ℚ :=
  match P.tripAt i with
  | none => 0
  | some t => t.origin.duration

/-- `_timeout_by_position_idx`, three_index.py:223-227. -/
def rideLimit (i : Nat) : Bound :=
  match P.tripAt i with
  | none => .fin 0
  | some t => t.timeout

/-- `self._vehicles[k].capacity`. -/
def vehCapacity (k : Nat) : ℚ := (P.vehicles.map Vehicle.capacity).getD k 0

/-- `self._vehicles[k].timeout`. -/
def vehTimeout (k : Nat) : Bound := (P.vehicles.map Vehicle.timeout).getD k .inf

/-- `_uniqueness_constraints`, three_index.py:229-243. -/
def uniqueness : List (Assignment → Bool) :=
  P.pickupsIdx.flatMap fun i =>
    (fun a => decide (((P.positionsIdx.product P.routesIdx).map fun jk => a.x jk.2 i jk.1).sum = 1)) ::
      P.routesIdx.map fun k a =>
        decide ((P.positionsIdx.map fun j => a.x k i j).sum - (P.positionsIdx.map fun j => a.x k (P.n + i) j).sum = 0)

/-- `_connectivity_constraints`, three_index.py:245-262. -/
def connectivity : List (Assignment → Bool) :=
  P.routesIdx.flatMap fun k =>
    [fun a => decide ((P.positionsIdx.map fun j => a.x k 0 j).sum = 1)] ++
    (P.nodesIdx.map fun i a =>
      decide ((P.positionsIdx.map fun j => a.x k j i).sum - (P.positionsIdx.map fun j => a.x k i j).sum = 0)) ++
    [fun a => decide ((P.positionsIdx.map fun i => a.x k i (P.len - 1)).sum = 1)]

/-- The time constraint of three_index.py:270-280. If `latest_i` is infinite so is the coefficient of `1 - x`; such a
constraint is not modelled (taken as satisfied). -/
def timeConstraint (k i j : Nat) (a : Assignment) : Bool :=
  match P.window i, P.window j with
  | some (_, .fin latest), some (earliest, _) =>
    decide (a.u k j ≥ a.u k i + P.loadTime i + P.travel i j -
      max 0 (latest + P.loadTime i + P.travel i j - earliest) * (1 - a.x k i j))
  | _, _ => true

/-- `_time_constraints`, three_index.py:264-289. -/
def timing : List (Assignment → Bool) :=
  P.routesIdx.flatMap fun k => (P.positionsIdx.product P.positionsIdx).flatMap fun ij =>
    [P.timeConstraint k ij.1 ij.2,
     fun a => decide (a.w k ij.2 ≥ a.w k ij.1 + P.demand ij.2 -
       (P.vehCapacity k + min 0 (P.demand ij.1)) * (1 - a.x k ij.1 ij.2))]

/-- The time window constraints of three_index.py:299-301. -/
def windowConstraints (k i : Nat) : List (Assignment → Bool) :=
  match P.window i with
  | none => []
  | some (earliest, latest) => [fun a => decide (earliest ≤ a.u k i), fun a => Bound.leQ (a.u k i) latest]

/-- The ride time constraints of three_index.py:303-313. -/
def rideConstraints (k i : Nat) : List (Assignment → Bool) :=
  [fun a => decide (P.travel i (i + P.n) ≤ a.u k (i + P.n) - (a.u k i + P.loadTime i)),
   fun a => Bound.leQ (a.u k (i + P.n) - (a.u k i + P.loadTime i)) (P.rideLimit i)]

/-- The load constraints of three_index.py:315-323. -/
def loadConstraints (k i : Nat) : List (Assignment → Bool) :=
  [fun a => decide (max 0 (P.demand i) ≤ a.w k i),
   fun a => decide (a.w k i ≤ P.vehCapacity k + min 0 (P.demand i))]

/-- The duration constraint of three_index.py:295-296. -/
def durationConstraint (k : Nat) (a : Assignment) : Bool := Bound.leQ (a.u k (P.len - 1) - a.u k 0) (P.vehTimeout k)

/-- `_feasibility_constraints`, three_index.py:291-325. -/
def feasibility : List (Assignment → Bool) :=
  P.routesIdx.flatMap fun k =>
    [P.durationConstraint k] ++ P.positionsIdx.flatMap (P.windowConstraints k) ++
      P.pickupsIdx.flatMap (P.rideConstraints k) ++ P.positionsIdx.flatMap (P.loadConstraints k)

/-- `_constraints`, three_index.py:82-95. -/
def constraints : List (Assignment → Bool) := P.uniqueness ++ P.connectivity ++ P.timing ++ P.feasibility

/-- Domains of the variables (`cat=LpBinary`, `lowBound=0.0`), three_index.py:97-131. -/
def inDomain (a : Assignment) : Bool :=
  P.routesIdx.all fun k => P.positionsIdx.all fun i =>
    decide (0 ≤ a.u k i) && decide (0 ≤ a.w k i) && P.positionsIdx.all fun j => decide (a.x k i j = 0) || decide (a.x k i j = 1)

/-- The assignment is a solution of the problem. -/
def solves (a : Assignment) : Bool := P.inDomain a && P.constraints.all fun c => c a

/-- `_objective`, three_index.py:75-80. -/
def objective (a : Assignment) : ℚ :=
  ((P.routesIdx.product (P.positionsIdx.product P.positionsIdx)).map fun kij =>
    a.x kij.1 kij.2.1 kij.2.2 * P.cost kij.2.1 kij.2.2).sum

/-! ## Reading a solution -/

/-- Python `int(v)` on a number: truncation towards zero. -/
def toInt (v : ℚ) : Int := if 0 ≤ v then v.floor else v.ceil

/-- `_validate`, three_index.py:365-376. -/
def validates (a : Assignment) : Bool :=
  P.routesIdx.all fun k => P.positionsIdx.all fun i =>
    decide (0 ≤ a.u k i) && decide (0 ≤ a.w k i) &&
      P.positionsIdx.all fun j => decide (min |a.x k i j| |a.x k i j - 1| ≤ 1 / 20)

/-- `sorted(range(len(self._u[k])), key=...)` (three_index.py:421): insert before the first strictly larger key;
inserting from the right keeps equal keys in order. -/
def insertByTime (key : Nat → ℚ) (i : Nat) : List Nat → List Nat
  | [] => [i]
  | j :: l => if key i ≤ key j then i :: j :: l else j :: insertByTime key i l

/-- Stable sort by a key. -/
def sortByTime (key : Nat → ℚ) (l : List Nat) : List Nat := l.foldr (insertByTime key) []

/-- The node indices behind `_solution_to_positions`, three_index.py:420-428: nodes in the order of their times, once
per outgoing arc that is read as used. -/
def visitedNodes (a : Assignment) (k : Nat) : List Nat :=
  (sortByTime (a.u k) (List.range P.len)).flatMap fun i =>
    (P.positionsIdx.filter fun j => decide (toInt (a.x k i j) = 1)).map fun _ => i

/-- `_solution_to_positions`, three_index.py:420-428. -/
def visitedPositions (a : Assignment) (k : Nat) : List Pos := (P.visitedNodes a k).map P.pos

/-- `_positions_to_trips`, three_index.py:398-407, as indices into `_trips`. -/
def tripsOfPositions (ps : List Pos) : List Nat :=
  ps.foldl (fun acc p =>
    match (List.range P.n).find? fun t => decide ((P.trips.map fun t => t.origin.position)[t]? = some p) with
    | none => acc
    | some t => if t ∈ acc then acc else acc ++ [t]) []

end Milp

end Jinete
