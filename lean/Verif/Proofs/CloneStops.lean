import Verif.Proofs.CloneInit

/-!
# The copying loop of `RouteCloner.clone`
-/

set_option autoImplicit false

namespace Jinete

variable {E : Env}

/-- Replace the planned trip attributes. -/
def Heap.withPt (h : Heap) (f : Nat → PtCore) : Heap := { h with core := { h.core with pt := f } }

theorem mapEach_mapPickup {m : Mapper} {φ : Nat → Nat} {n : Nat} (ps : List Nat) :
    ∀ h : Heap, (∀ p ∈ ps, m.lookup p = some (φ p)) →
      Py.mapEach ps (mapPickup m n) h = (.ok (ps.map φ), h.withPt fun q =>
        if q ∈ ps.map φ then { h.core.pt q with pickup := some n } else h.core.pt q) := by
  induction ps with
  | nil => intro h _; simp [Py.mapEach, Heap.withPt]
  | cons p ps ih =>
    intro h hl
    rw [Py.mapEach]
    have h1 : mapPickup m n p h = (.ok (φ p), h.setPt (φ p) { h.core.pt (φ p) with pickup := some n }) := by
      unfold mapPickup
      rw [hl p (by simp)]
      rfl
    rw [Py.bind_ok h1, Py.bind_ok (ih _ fun q hq => hl q (by simp [hq]))]
    simp only [Heap.withPt, Heap.setPt, Py.pure_run', List.map_cons, Prod.mk.injEq, true_and, Heap.mk.injEq, Core.mk.injEq,
      and_true]
    funext q
    by_cases hq : q = φ p
    · subst hq
      by_cases h2 : φ p ∈ ps.map φ <;> simp [h2]
    · by_cases h2 : q ∈ ps.map φ <;> simp [h2, hq]

theorem mapEach_mapDelivery {m : Mapper} {φ : Nat → Nat} {n : Nat} (ps : List Nat) :
    ∀ h : Heap, (∀ p ∈ ps, m.lookup p = some (φ p)) →
      Py.mapEach ps (mapDelivery m n) h = (.ok (ps.map φ), h.withPt fun q =>
        if q ∈ ps.map φ then { h.core.pt q with delivery := some n } else h.core.pt q) := by
  induction ps with
  | nil => intro h _; simp [Py.mapEach, Heap.withPt]
  | cons p ps ih =>
    intro h hl
    rw [Py.mapEach]
    have h1 : mapDelivery m n p h = (.ok (φ p), h.setPt (φ p) { h.core.pt (φ p) with delivery := some n }) := by
      unfold mapDelivery
      rw [hl p (by simp)]
      rfl
    rw [Py.bind_ok h1, Py.bind_ok (ih _ fun q hq => hl q (by simp [hq]))]
    simp only [Heap.withPt, Heap.setPt, Py.pure_run', List.map_cons, Prod.mk.injEq, true_and, Heap.mk.injEq, Core.mk.injEq,
      and_true]
    funext q
    by_cases hq : q = φ p
    · subst hq
      by_cases h2 : φ p ∈ ps.map φ <;> simp [h2]
    · by_cases h2 : q ∈ ps.map φ <;> simp [h2, hq]

/-- The attributes of the copy of stop `s`. -/
def copyStop (c : Core) (φ : Nat → Nat) (prev : Option Nat) (s : Nat) : StopCore :=
  ⟨(c.stop s).vehicle, (c.stop s).position, prev, (c.stop s).pickups.map φ, (c.stop s).deliveries.map φ, (c.stop s).start⟩

/-- The planned trips after copying stop `s` to stop `n`. -/
def copyPt (c : Core) (φ : Nat → Nat) (n s : Nat) (q : Nat) : PtCore :=
  ⟨(c.pt q).vehicle, (c.pt q).trip,
    if q ∈ (c.stop s).pickups.map φ then some n else (c.pt q).pickup,
    if q ∈ (c.stop s).deliveries.map φ then some n else (c.pt q).delivery⟩

theorem cloneStop_run {m : Mapper} {φ : Nat → Nat} (h : Heap) (prev : Option Nat) (s : Nat)
    (h1 : ∀ p ∈ (h.core.stop s).pickups, m.lookup p = some (φ p))
    (h2 : ∀ p ∈ (h.core.stop s).deliveries, m.lookup p = some (φ p)) :
    cloneStop m prev s h = (.ok h.core.nStop,
      (h.allocStop (copyStop h.core φ prev s)).withPt (copyPt h.core φ h.core.nStop s)) := by
  unfold cloneStop
  simp only [Py.read_bind]
  have e1 : newStop (h.core.stop s).vehicle (h.core.stop s).position prev (h.core.stop s).start h =
    (.ok h.core.nStop, h.allocStop ⟨(h.core.stop s).vehicle, (h.core.stop s).position, prev, [], [], (h.core.stop s).start⟩) := rfl
  rw [Py.bind_ok e1, Py.bind_ok (mapEach_mapPickup _ _ h1)]
  simp only [Py.modify_bind]
  rw [Py.bind_ok (mapEach_mapDelivery _ _ h2)]
  simp only [Py.modify_bind, Py.pure_run, Heap.withPt, Heap.allocStop, Heap.setStop, Prod.mk.injEq, true_and,
    Heap.mk.injEq, Core.mk.injEq, Function.update_self, Function.update_idem, copyStop, and_true]
  funext q
  unfold copyPt
  by_cases a : q ∈ (h.core.stop s).pickups.map φ <;> by_cases b : q ∈ (h.core.stop s).deliveries.map φ <;> simp [a, b]

/-- What the copying loop does to the heap: stop `l[i]` is copied to stop `h.core.nStop + i`. -/
structure Copied (h h' : Heap) (φ : Nat → Nat) (prev : Option Nat) (l : List Nat) : Prop where
  nStop : h'.core.nStop = h.core.nStop + l.length
  route : h'.core.route = h.core.route
  nRoute : h'.core.nRoute = h.core.nRoute
  nPt : h'.core.nPt = h.core.nPt
  pfeas : h'.pfeas = h.pfeas
  rfeas : h'.rfeas = h.rfeas
  stop : ∀ x, x < h.core.nStop → h'.core.stop x = h.core.stop x
  caches : ∀ x, x < h.core.nStop → h'.arr x = h.arr x ∧ h'.dep x = h.dep x ∧ h'.cap x = h.cap x ∧ h'.sfeas x = h.sfeas x
  copy : ∀ i s, l[i]? = some s → h'.core.stop (h.core.nStop + i) =
    copyStop h.core φ (if i = 0 then prev else some (h.core.nStop + i - 1)) s
  blank : ∀ i, i < l.length → Blank h' (h.core.nStop + i) ∧ h'.sfeas (h.core.nStop + i) = none
  ptBase : ∀ q, (h'.core.pt q).vehicle = (h.core.pt q).vehicle ∧ (h'.core.pt q).trip = (h.core.pt q).trip
  ptPickup : ∀ q, q ∉ (picksOf h.core l).map φ → (h'.core.pt q).pickup = (h.core.pt q).pickup
  ptDelivery : ∀ q, q ∉ (dropsOf h.core l).map φ → (h'.core.pt q).delivery = (h.core.pt q).delivery
  pickup : ∀ i s p, l[i]? = some s → p ∈ (h.core.stop s).pickups → (h'.core.pt (φ p)).pickup = some (h.core.nStop + i)
  delivery : ∀ i s p, l[i]? = some s → p ∈ (h.core.stop s).deliveries →
    (h'.core.pt (φ p)).delivery = some (h.core.nStop + i)

theorem cloneStops_run {m : Mapper} {φ : Nat → Nat} (l : List Nat) :
    ∀ (h : Heap) (prev : Option Nat), (∀ s ∈ l, s < h.core.nStop) →
      (∀ p ∈ picksOf h.core l, m.lookup p = some (φ p)) → (∀ p ∈ dropsOf h.core l, m.lookup p = some (φ p)) →
      ((picksOf h.core l).map φ).Nodup → ((dropsOf h.core l).map φ).Nodup →
      ∃ h', cloneStops m prev l h = (.ok (List.range' h.core.nStop l.length), h') ∧ Copied h h' φ prev l := by
  induction l with
  | nil =>
    intro h prev _ _ _ _ _
    refine ⟨h, rfl, ?_⟩
    constructor <;> simp
  | cons s l ih =>
    intro h prev ha hp hd hpn hdn
    rw [cloneStops]
    rw [picksOf_cons] at hp hpn
    rw [dropsOf_cons] at hd hdn
    have hs := cloneStop_run (m := m) (φ := φ) h prev s (fun p hp' => hp p (List.mem_append_left _ hp'))
      (fun p hp' => hd p (List.mem_append_left _ hp'))
    rw [Py.bind_ok hs]
    generalize hg : (h.allocStop (copyStop h.core φ prev s)).withPt (copyPt h.core φ h.core.nStop s) = g at *
    have gstop : ∀ x, x ≠ h.core.nStop → g.core.stop x = h.core.stop x := by
      intro x hx; rw [← hg]; simp [Heap.withPt, Heap.allocStop, Function.update, hx]
    have gnew : g.core.stop h.core.nStop = copyStop h.core φ prev s := by
      rw [← hg]; simp [Heap.withPt, Heap.allocStop]
    have gn : g.core.nStop = h.core.nStop + 1 := by rw [← hg]; rfl
    have gpt : g.core.pt = copyPt h.core φ h.core.nStop s := by rw [← hg]; rfl
    have gl : ∀ x ∈ l, g.core.stop x = h.core.stop x := fun x hx => gstop x (Nat.ne_of_lt (ha x (by simp [hx])))
    have gp : picksOf g.core l = picksOf h.core l := by
      apply List.flatMap_congr; intro x hx; rw [gl x hx]
    have gd : dropsOf g.core l = dropsOf h.core l := by
      apply List.flatMap_congr; intro x hx; rw [gl x hx]
    rw [List.map_append, List.nodup_append] at hpn hdn
    obtain ⟨h', e', c⟩ := ih g (some h.core.nStop) (fun x hx => by rw [gn]; have := ha x (by simp [hx]); omega)
      (by rw [gp]; exact fun p hp' => hp p (List.mem_append_right _ hp'))
      (by rw [gd]; exact fun p hp' => hd p (List.mem_append_right _ hp'))
      (by rw [gp]; exact hpn.2.1) (by rw [gd]; exact hdn.2.1)
    refine ⟨h', ?_, ?_⟩
    · rw [Py.bind_ok e', gn]; rfl
    · constructor
      · rw [c.nStop, gn]; simp; omega
      · rw [c.route, ← hg]; rfl
      · rw [c.nRoute, ← hg]; rfl
      · rw [c.nPt, ← hg]; rfl
      · rw [c.pfeas, ← hg]; rfl
      · rw [c.rfeas, ← hg]; rfl
      · intro x hx
        rw [c.stop x (by omega), gstop x (by omega)]
      · intro x hx
        obtain ⟨a1, a2, a3, a4⟩ := c.caches x (by omega)
        rw [a1, a2, a3, a4, ← hg]
        simp [Heap.withPt, Heap.allocStop, Function.update, Nat.ne_of_lt hx]
      · intro i x hx
        cases i with
        | zero =>
          simp only [List.getElem?_cons_zero, Option.some.injEq] at hx
          subst hx
          rw [Nat.add_zero, c.stop _ (by omega), gnew]; simp
        | succ i =>
          simp only [List.getElem?_cons_succ] at hx
          have hxm := List.mem_of_getElem? hx
          have := c.copy i x hx
          rw [gn] at this
          have e1 : h.core.nStop + (i + 1) = h.core.nStop + 1 + i := by omega
          rw [e1, this]
          unfold copyStop
          rw [gl x hxm]
          congr 1
          by_cases h0 : i = 0
          · subst h0; simp
          · simp [h0]
      · intro i hi
        cases i with
        | zero =>
          obtain ⟨a1, a2, a3, a4⟩ := c.caches h.core.nStop (by omega)
          refine ⟨⟨?_, ?_, ?_⟩, ?_⟩
          · rw [Nat.add_zero, a1, ← hg]; simp [Heap.withPt, Heap.allocStop]
          · rw [Nat.add_zero, a2, ← hg]; simp [Heap.withPt, Heap.allocStop]
          · rw [Nat.add_zero, a3, ← hg]; simp [Heap.withPt, Heap.allocStop]
          · rw [Nat.add_zero, a4, ← hg]; simp [Heap.withPt, Heap.allocStop]
        | succ i =>
          have := c.blank i (by simpa using hi)
          rw [gn] at this
          have e1 : h.core.nStop + (i + 1) = h.core.nStop + 1 + i := by omega
          rw [e1]; exact this
      · intro q
        obtain ⟨a1, a2⟩ := c.ptBase q
        rw [a1, a2, gpt]; exact ⟨rfl, rfl⟩
      · intro q hq
        rw [picksOf_cons, List.map_append, List.mem_append, not_or] at hq
        rw [c.ptPickup q (by rw [gp]; exact hq.2), gpt]
        simp only [copyPt, if_neg hq.1]
      · intro q hq
        rw [dropsOf_cons, List.map_append, List.mem_append, not_or] at hq
        rw [c.ptDelivery q (by rw [gd]; exact hq.2), gpt]
        simp only [copyPt, if_neg hq.1]
      · intro i x p hx hpx
        cases i with
        | zero =>
          simp only [List.getElem?_cons_zero, Option.some.injEq] at hx
          subst hx
          have hm : φ p ∈ (h.core.stop s).pickups.map φ := List.mem_map_of_mem hpx
          rw [c.ptPickup (φ p) (by rw [gp]; exact fun h' => hpn.2.2 _ hm _ h' rfl), gpt]
          simp only [copyPt, if_pos hm, Nat.add_zero]
        | succ i =>
          simp only [List.getElem?_cons_succ] at hx
          have := c.pickup i x p hx (by rw [gl x (List.mem_of_getElem? hx)]; exact hpx)
          rw [this, gn]; congr 1; omega
      · intro i x p hx hpx
        cases i with
        | zero =>
          simp only [List.getElem?_cons_zero, Option.some.injEq] at hx
          subst hx
          have hm : φ p ∈ (h.core.stop s).deliveries.map φ := List.mem_map_of_mem hpx
          rw [c.ptDelivery (φ p) (by rw [gd]; exact fun h' => hdn.2.2 _ hm _ h' rfl), gpt]
          simp only [copyPt, if_pos hm, Nat.add_zero]
        | succ i =>
          simp only [List.getElem?_cons_succ] at hx
          have := c.delivery i x p hx (by rw [gl x (List.mem_of_getElem? hx)]; exact hpx)
          rw [this, gn]; congr 1; omega

end Jinete
