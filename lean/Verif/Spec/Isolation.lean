import Verif.Model.Heap

/-!
# What the owner of some routes may rely on while somebody works on copies of them
-/

set_option autoImplicit false

namespace Jinete

/-- Objects that exist refer only to objects that exist. -/
structure NoDangling (c : Core) : Prop where
  previous : ∀ s, s < c.nStop → ∀ q ∈ (c.stop s).previous, q < c.nStop
  pickups : ∀ s, s < c.nStop → ∀ p ∈ (c.stop s).pickups, p < c.nPt
  deliveries : ∀ s, s < c.nStop → ∀ p ∈ (c.stop s).deliveries, p < c.nPt
  pickup : ∀ p, p < c.nPt → ∀ s ∈ (c.pt p).pickup, s < c.nStop
  delivery : ∀ p, p < c.nPt → ∀ s ∈ (c.pt p).delivery, s < c.nStop
  stops : ∀ r, r < c.nRoute → ∀ s ∈ (c.route r).stops, s < c.nStop

/-- Every object that existed still exists and has all its attributes and exactly the memoised values it had. -/
structure Untouched (h h' : Heap) : Prop where
  exist : h.core.nStop ≤ h'.core.nStop ∧ h.core.nPt ≤ h'.core.nPt ∧ h.core.nRoute ≤ h'.core.nRoute
  stop : ∀ s, s < h.core.nStop → h'.core.stop s = h.core.stop s
  memos : ∀ s, s < h.core.nStop → h'.arr s = h.arr s ∧ h'.dep s = h.dep s ∧ h'.cap s = h.cap s ∧ h'.sfeas s = h.sfeas s
  plannedTrip : ∀ p, p < h.core.nPt → h'.core.pt p = h.core.pt p ∧ h'.pfeas p = h.pfeas p
  route : ∀ r, r < h.core.nRoute → h'.core.route r = h.core.route r ∧ h'.rfeas r = h.rfeas r

/-- The routes `l`, their stops, what those stops follow, and the planned trips at those stops were all created after
`h`, and so were the stops of those planned trips. -/
structure AllNew (h h' : Heap) (l : List Nat) : Prop where
  route : ∀ r ∈ l, h.core.nRoute ≤ r ∧ r < h'.core.nRoute
  stop : ∀ r ∈ l, ∀ s ∈ (h'.core.route r).stops, h.core.nStop ≤ s ∧ s < h'.core.nStop
  previous : ∀ r ∈ l, ∀ s ∈ (h'.core.route r).stops, ∀ q, (h'.core.stop s).previous = some q → h.core.nStop ≤ q
  plannedTrip : ∀ r ∈ l, ∀ s ∈ (h'.core.route r).stops, ∀ p ∈ (h'.core.stop s).pickups ++ (h'.core.stop s).deliveries,
    h.core.nPt ≤ p ∧ p < h'.core.nPt
  ends : ∀ r ∈ l, ∀ s ∈ (h'.core.route r).stops, ∀ p ∈ (h'.core.stop s).pickups ++ (h'.core.stop s).deliveries,
    ∀ x, (h'.core.pt p).pickup = some x ∨ (h'.core.pt p).delivery = some x → h.core.nStop ≤ x

/-- What isolation means for a computation of routes, whether it returned or raised: nothing that existed changed, nothing
dangles, and the routes it returned share no object with what existed. -/
structure Isolated (h : Heap) (out : Except Err (List Nat) × Heap) : Prop where
  untouched : Untouched h out.2
  noDangling : NoDangling out.2.core
  allNew : ∀ l, out.1 = .ok l → AllNew h out.2 l

end Jinete
