import Verif.Model.Plot
import Verif.Spec.RouteState

/-!
# What a plot of a planning should show
-/

set_option autoImplicit false

namespace Jinete

/-- The positions of a tour, in order. -/
def tourOf (c : Core) (r : Nat) : List Pos := (itinerary c r).map Visit.pos

/-- Somewhere in the list, `e.2` follows `e.1`. -/
def GoesOn (l : List Pos) (e : Pos × Pos) : Prop := ∃ i, l[i]? = some e.1 ∧ l[i + 1]? = some e.2

/-- `p` is an end of a leg of the route. -/
def OnTheWay (c : Core) (r : Nat) (p : Pos) : Prop := ∃ q, GoesOn (tourOf c r) (p, q) ∨ GoesOn (tourOf c r) (q, p)

/-- The ends of the trips with what should be written there, in the order of the trips. -/
def labelledEnds (E : Env) (ident : Nat → Text) (trips : List Nat) : List (Pos × Text) :=
  trips.flatMap fun t => [((E.trip t).origin.position, '+' :: ident t), ((E.trip t).destination.position, '-' :: ident t)]

/-- The last entry of the list for `k` is `v`. -/
def LastEntry {K V : Type} (l : List (K × V)) (k : K) (v : V) : Prop :=
  ∃ i, l[i]? = some (k, v) ∧ ∀ (j : Nat) (e : K × V), i < j → l[j]? = some e → e.1 ≠ k

/-- The plot shows the routes and the trips: each leg of a route once, in the colour of the last route with that leg; each end of a leg
or a trip once, with the last of the labels for it, or none. -/
structure PlotOf (E : Env) (ident : Nat → Text) (c : Core) (routes trips : List Nat) (g : Plot) : Prop where
  edgesOnce : (g.edges.map Prod.fst).Nodup
  nodesOnce : (g.nodes.map Prod.fst).Nodup
  edges : ∀ e i, (e, i) ∈ g.edges ↔ (∃ r, routes[i]? = some r ∧ GoesOn (tourOf c r) e) ∧
    ∀ j r, i < j → routes[j]? = some r → ¬ GoesOn (tourOf c r) e
  nodes : ∀ p t, (p, t) ∈ g.nodes ↔ LastEntry (labelledEnds E ident trips) p t ∨
    (∀ e ∈ labelledEnds E ident trips, e.1 ≠ p) ∧ t = [] ∧ ∃ r ∈ routes, OnTheWay c r p

end Jinete
