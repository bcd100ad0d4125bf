import Verif.Model.Text
import Verif.Model.Route

/-!
# Plots of plannings

jinete/storers/plots/graph.py. Positions are equal when their coordinates are (jinete/models/positions.py:104-111). A colour of the
palette of `len(routes)` colours is its number.
-/

set_option autoImplicit false

namespace Jinete

/-- `d[k] = v` for a dict with its keys in order of insertion. -/
def putKey {K V : Type} [DecidableEq K] (k : K) (v : V) : List (K × V) → List (K × V)
  | [] => [(k, v)]
  | e :: d => if e.1 = k then (k, v) :: d else e :: putKey k v d

/-- `if k not in d: d[k] = v`. -/
def putNew {K V : Type} [DecidableEq K] (k : K) (v : V) (d : List (K × V)) : List (K × V) :=
  if k ∈ d.map Prod.fst then d else putKey k v d

/-- A graph as drawn: nodes with their labels, edges with the numbers of their colours. -/
structure Plot where
  nodes : List (Pos × Text)
  edges : List ((Pos × Pos) × Nat)
  deriving DecidableEq

/-- `zip(route.stops[:-1], route.stops[1:])`, as positions, jinete/storers/plots/graph.py:65-66. -/
def routeLegs (c : Core) (r : Nat) : List (Pos × Pos) :=
  let stops := (c.route r).stops
  (stops.dropLast.zip stops.tail).map fun e => ((c.stop e.1).position, (c.stop e.2).position)

/-- `_generate_edges`, jinete/storers/plots/graph.py:62-70. `routes` lists the set in iteration order; the palette has one colour
for each of them. -/
def plotEdges (c : Core) (routes : List Nat) : List ((Pos × Pos) × Nat) :=
  routes.zipIdx.foldl (fun d e => (routeLegs c e.1).foldl (fun d leg => putKey leg e.2 d) d) []

/-- `_generate_nodes`, jinete/storers/plots/graph.py:42-60. `trips` lists the trips of the job in iteration order. -/
def plotNodes (E : Env) (ident : Nat → Text) (trips : List Nat) (edges : List ((Pos × Pos) × Nat)) : List (Pos × Text) :=
  let nodes := trips.foldl (fun d t => putKey (E.trip t).destination.position ('-' :: ident t)
    (putKey (E.trip t).origin.position ('+' :: ident t) d)) []
  edges.foldl (fun d e => putNew e.1.2 [] (putNew e.1.1 [] d)) nodes

/-- The nodes of the `DiGraph`, jinete/storers/plots/graph.py:72-85: those of the edges in their order, then those added. -/
def graphNodes (edges : List ((Pos × Pos) × Nat)) (nodes : List (Pos × Text)) : List Pos :=
  ((edges.flatMap fun e => [e.1.1, e.1.2]) ++ nodes.map Prod.fst).foldl (fun l p => if p ∈ l then l else l ++ [p]) []

/-- `_generate_graph` and the labels and colours of `_show_graph`, jinete/storers/plots/graph.py:72-101. A node without label is a
`KeyError`. The order of edges, by which networkx groups them, is not that of the model; colours go with their edges. -/
def graphPlot (E : Env) (ident : Nat → Text) (c : Core) (routes trips : List Nat) : Except Err Plot :=
  let edges := plotEdges c routes
  let nodes := plotNodes E ident trips edges
  match (graphNodes edges nodes).mapM fun p => (nodes.lookup p).map fun t => (p, t) with
  | some labelled => .ok ⟨labelled, edges⟩
  | none => .error .keyError

end Jinete
