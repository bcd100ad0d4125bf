import Verif.Proofs.Insert
import Verif.Proofs.Remove
import Verif.Model.LocalSearch

/-!
# Editing a route that was just cloned

`Draft h0 h1 r F g`: the heap `g` comes from `h1`, where route `r` was cloned from one of `h0`, by edits that stay within
the copied stops `F` and route `r`.
-/

set_option autoImplicit false

namespace Jinete

variable {E : Env}

/-- Only the route `r` and the stops `F`, all newer than `h0`, were edited; nothing is memoised about them. -/
structure Draft (h0 h1 : Heap) (r : Nat) (F : List Nat) (g : Heap) : Prop where
  below : Below h0 g
  new : h0.core.nRoute ≤ r
  nStop : g.core.nStop = h1.core.nStop
  nPt : g.core.nPt = h1.core.nPt
  nRoute : g.core.nRoute = h1.core.nRoute
  stop : ∀ x, ∃ q, g.core.stop x = { h1.core.stop x with previous := q }
  pt : g.core.pt = h1.core.pt
  vehicle : (g.core.route r).vehicle = (h1.core.route r).vehicle
  freshStop : ∀ x ∈ F, h0.core.nStop ≤ x ∧ Blank g x ∧ g.sfeas x = none
  freshPt : ∀ x ∈ F, ∀ p ∈ ptsAt g.core x, h0.core.nPt ≤ p ∧ g.pfeas p = none
  rfeas : g.rfeas r = none

theorem CloneOf.draft {h h' : Heap} {r r' : Nat} {pre suf fresh : List Nat} (c : CloneOf h h' r r' pre suf fresh) :
    Draft h h' r' fresh h' where
  below := c.below
  new := by rw [c.new]
  nStop := rfl
  nPt := rfl
  nRoute := rfl
  stop x := ⟨_, rfl⟩
  pt := rfl
  vehicle := rfl
  freshStop := c.freshStop
  freshPt := c.freshPt
  rfeas := c.rfeas

namespace Draft

variable {h0 h1 g : Heap} {r : Nat} {F : List Nat}

theorem ptsAt_eq (d : Draft h0 h1 r F g) (x : Nat) : ptsAt g.core x = ptsAt h1.core x := by
  obtain ⟨q, hq⟩ := d.stop x
  unfold ptsAt
  rw [hq]

theorem visit (d : Draft h0 h1 r F g) (x : Nat) : visitOf g.core x = visitOf h1.core x := by
  obtain ⟨q, hq⟩ := d.stop x
  unfold visitOf
  rw [hq, d.pt]

theorem stopTrips_eq (d : Draft h0 h1 r F g) (x : Nat) : stopTrips g.core x = stopTrips h1.core x := by
  rw [stopTrips_visit, stopTrips_visit, d.visit]

/-- Setting the link of a copied stop. -/
theorem link (d : Draft h0 h1 r F g) {s : Nat} (hs : s ∈ F) (q : Option Nat) :
    Draft h0 h1 r F (g.setStop s { g.core.stop s with previous := q }) := by
  have hst : ∀ x, (g.setStop s { g.core.stop s with previous := q }).core.stop x =
      if x = s then { g.core.stop s with previous := q } else g.core.stop x := by
    intro x; simp [Heap.setStop, Function.update_apply]
  have hpts : ∀ x, ptsAt (g.setStop s { g.core.stop s with previous := q }).core x = ptsAt g.core x := by
    intro x
    unfold ptsAt
    rw [hst]
    by_cases hx : x = s <;> simp [hx]
  refine ⟨?_, d.new, d.nStop, d.nPt, d.nRoute, ?_, d.pt, d.vehicle, ?_, ?_, d.rfeas⟩
  · refine ⟨d.below.nStop, d.below.nPt, d.below.nRoute, ?_, d.below.caches, d.below.pt, d.below.route⟩
    intro x hx
    rw [hst, if_neg (by rintro rfl; have := (d.freshStop x hs).1; omega)]
    exact d.below.stop x hx
  · intro x
    rw [hst]
    obtain ⟨q', hq'⟩ := d.stop x
    by_cases hx : x = s
    · subst hx
      exact ⟨q, by rw [if_pos rfl, hq']⟩
    · exact ⟨q', by rw [if_neg hx, hq']⟩
  · intro x hx
    obtain ⟨a, b, e⟩ := d.freshStop x hx
    exact ⟨a, ⟨b.arr, b.dep, b.cap⟩, e⟩
  · intro x hx p hp
    rw [hpts] at hp
    exact d.freshPt x hx p hp

/-- Forgetting what is memoised at copied stops. -/
theorem flush (d : Draft h0 h1 r F g) {l : List Nat} (hl : ∀ x ∈ l, x ∈ F) : Draft h0 h1 r F (flushStops g l) := by
  refine ⟨?_, d.new, by simpa using d.nStop, by simpa using d.nPt, by simpa using d.nRoute, by simpa using d.stop,
    by simpa using d.pt, by simpa using d.vehicle, ?_, ?_, by simpa using d.rfeas⟩
  · refine ⟨by simpa using d.below.nStop, by simpa using d.below.nPt, by simpa using d.below.nRoute,
      by simpa using d.below.stop, ?_, ?_, by simpa using d.below.route⟩
    · intro x hx
      have hn : x ∉ l := fun hm => by have := (d.freshStop x (hl x hm)).1; omega
      rw [flushStops_arr, flushStops_dep, flushStops_cap, if_neg hn, if_neg hn, if_neg hn, flushStops_sfeas]
      exact d.below.caches x hx
    · intro p hp
      have hn : p ∉ l.flatMap (ptsAt g.core) := by
        intro hm
        obtain ⟨x, hx, hpx⟩ := List.mem_flatMap.1 hm
        have := (d.freshPt x (hl x hx) p hpx).1
        omega
      rw [flushStops_core, flushStops_pfeas, if_neg hn]
      exact d.below.pt p hp
  · intro x hx
    obtain ⟨a, b, e⟩ := d.freshStop x hx
    refine ⟨a, ⟨?_, ?_, ?_⟩, by simpa using e⟩
    · rw [flushStops_arr]; split <;> [rfl; exact b.arr]
    · rw [flushStops_dep]; split <;> [rfl; exact b.dep]
    · rw [flushStops_cap]; split <;> [rfl; exact b.cap]
  · intro x hx p hp
    rw [flushStops_core] at hp
    obtain ⟨a, b⟩ := d.freshPt x hx p hp
    refine ⟨a, ?_⟩
    rw [flushStops_pfeas]; split <;> [rfl; exact b]

/-- Changing the stops of the route. -/
theorem stops (d : Draft h0 h1 r F g) (l : List Nat) :
    Draft h0 h1 r F (g.setRoute r { g.core.route r with stops := l }) := by
  refine ⟨?_, d.new, d.nStop, d.nPt, d.nRoute, d.stop, d.pt, ?_, ?_, d.freshPt, d.rfeas⟩
  · refine ⟨d.below.nStop, d.below.nPt, d.below.nRoute, d.below.stop, d.below.caches, d.below.pt, ?_⟩
    intro q hq
    have hne : q ≠ r := by have := d.new; omega
    have := d.below.route q hq
    simpa [Heap.setRoute, hne] using this
  · simpa [Heap.setRoute] using d.vehicle
  · intro x hx
    obtain ⟨a, b, e⟩ := d.freshStop x hx
    exact ⟨a, ⟨b.arr, b.dep, b.cap⟩, e⟩

theorem remove (d : Draft h0 h1 r F g) {a b : Nat} {pre suf : List Nat} (hl : ∀ x ∈ b :: suf, x ∈ F) :
    Draft h0 h1 r F (afterRemove g r a b pre suf) :=
  ((d.link (hl b (by simp)) (some a)).stops _).flush hl

theorem insert (d : Draft h0 h1 r F g) {s f : Nat} {pre suf : List Nat} (hl : ∀ x ∈ s :: f :: suf, x ∈ F) :
    Draft h0 h1 r F (afterInsert g r s f pre suf) :=
  ((d.link (hl f (by simp)) (some s)).stops _).flush hl

/-- The edited route joins the family of the route it was copied from. -/
theorem inv {md : Mode} {R : Nat → Prop} {r0 : Nat} {pre suf F' : List Nat} (d : Draft h0 h1 r F g)
    (c : CloneOf h0 h1 r0 r pre suf F) (inv : Inv E md R h0) (hr : R r0) (hlen : pre.length = 0 ∨ 2 ≤ pre.length)
    (e : (g.core.route r).stops = pre ++ F') (hF : ∀ x ∈ F', x ∈ F) (hw : WellFormed g.core r) :
    Inv E md (Plus R r) g := by
  have hw0 := inv.ok.wf r0 hr
  have hk := d.below.keeps inv.ok.wf
  have mem : ∀ s ∈ pre, s ∈ (h0.core.route r0).stops := fun s hs => by rw [c.old]; exact List.mem_append_left _ hs
  have hsame : ∀ x ∈ (h0.core.route r0).stops, SameStop h0 g x := by
    intro x hx
    have hlt := hw0.alloc x hx
    obtain ⟨b1, b2, b3, _⟩ := d.below.caches x hlt
    exact ⟨⟨hk.core.visit hr hx |>.visit, by rw [d.below.stop x hlt]⟩, by rw [d.below.stop x hlt], b1, b2, b3⟩
  refine (inv.keeps hk).add hw ?_ ?_ ?_
  · have hl := hw0.linked
    rw [c.old] at hl
    rw [e]
    intro s hs
    rcases List.mem_append.1 hs with hs | hs
    · exact coh_prefix hl.prefix (fun x hx => inv.ok.agree r0 hr x (mem x hx)) (fun x hx => hsame x (mem x hx)) s hs
    · exact (d.freshStop s (hF s hs)).2.1.coh
  · intro q hq s h1 h2
    have hlt : s < h0.core.nStop := by
      rw [hk.route q hq] at h1
      exact (inv.ok.wf q hq).alloc s (List.mem_of_mem_head? h1)
    rw [hk.route q hq] at h1 ⊢
    rw [e] at h2 ⊢
    rcases hlen with hz | hz
    · have : pre = [] := List.eq_nil_of_length_eq_zero hz
      rw [this, List.nil_append] at h2
      have := (d.freshStop s (hF s (List.mem_of_mem_head? h2))).1
      omega
    · match pre, hz with
      | a :: b :: t, _ =>
        have : (h0.core.route r0).stops.head? = some s := by rw [c.old]; simpa using h2
        rw [inv.ok.share q hq r0 hr s h1 this, c.old]
        simp
  · refine verdicts_prefix hw0 hw (inv.vd.subset (fun q hq => hq ▸ hr)) c.old e ?_ ?_ ?_ ?_ ?_ ?_ ?_
    · intro x hx
      exact ⟨(hsame x (mem x hx)).visit, by rw [d.below.stop x (hw0.alloc x (mem x hx))]⟩
    · intro x hx p hp
      exact (d.below.pt p (hw0.pick' (mem x hx) hp).1).1
    · intro x hx
      exact .inl (d.below.caches x (hw0.alloc x (mem x hx))).2.2.2
    · intro x hx p hp
      exact .inl (d.below.pt p (hw0.pick' (mem x hx) hp).1).2
    · intro x hx b hb
      rw [(d.freshStop x (hF x hx)).2.2] at hb; cases hb
    · intro x hx p hp
      exact (d.freshPt x (hF x hx) p hp).2
    · intro b hb
      rw [d.rfeas] at hb; cases hb

/-- The edited route is well formed if its stops are some of those of the clone, without tearing planned trips
apart and without delivering before picking up. -/
theorem wf (d : Draft h0 h1 r F g) (hw : WellFormed h1.core r) (hc : Chained g.core r)
    (hsub : ∀ x ∈ (g.core.route r).stops, x ∈ (h1.core.route r).stops) (hlen : 2 ≤ (g.core.route r).stops.length)
    (hhead : (g.core.route r).stops.head? = (h1.core.route r).stops.head?)
    (hord : ∀ u v p, [u, v].Sublist (h1.core.route r).stops → p ∈ (h1.core.stop u).pickups → p ∈ (h1.core.stop v).deliveries →
      u ∈ (g.core.route r).stops ∨ v ∈ (g.core.route r).stops → [u, v].Sublist (g.core.route r).stops) :
    WellFormed g.core r := by
  have hpk : ∀ x, (g.core.stop x).pickups = (h1.core.stop x).pickups := fun x => by
    obtain ⟨q, hq⟩ := d.stop x; rw [hq]
  have hdl : ∀ x, (g.core.stop x).deliveries = (h1.core.stop x).deliveries := fun x => by
    obtain ⟨q, hq⟩ := d.stop x; rw [hq]
  refine WellFormed.of_order hc (by rw [d.nRoute]; exact hw.exists_) hlen ?_ ?_ ?_ ?_ ?_
  · rw [hhead]
    intro s hs
    rw [hpk, hdl]; exact hw.depot s hs
  · intro s hs p hp
    rw [hpk] at hp
    obtain ⟨a1, a2, v, a3, a4, a5⟩ := hw.pick' (hsub s hs) hp
    exact ⟨by rw [d.nPt]; exact a1, by rw [d.pt]; exact a2, v, hord s v p a3 hp a5 (.inl hs), by rw [d.pt]; exact a4,
      by rw [hdl]; exact a5⟩
  · intro s hs p hp
    rw [hdl] at hp
    obtain ⟨a1, a2, u, a3, a4, a5⟩ := hw.drop' (hsub s hs) hp
    exact ⟨by rw [d.nPt]; exact a1, by rw [d.pt]; exact a2, u, hord u s p a3 a5 hp (.inr hs), by rw [d.pt]; exact a4,
      by rw [hpk]; exact a5⟩
  · intro s hs
    rw [hpk, hdl]; exact hw.sets s (hsub s hs)
  · have hn := hw.pickups_nodup
    unfold itinerary
    rw [flatMap_visit_picks]
    have e1 : ((g.core.route r).stops.flatMap fun s => (g.core.stop s).pickups) =
        (g.core.route r).stops.flatMap fun s => (h1.core.stop s).pickups := List.flatMap_congr fun s _ => hpk s
    rw [e1, d.pt]
    refine List.Nodup.map_on ?_ ?_
    · intro p hp q hq e
      obtain ⟨x, hx, hpx⟩ := List.mem_flatMap.1 hp
      obtain ⟨y, hy, hqy⟩ := List.mem_flatMap.1 hq
      exact hw.trip_inj (List.mem_flatMap.2 ⟨x, hsub x hx, hpx⟩) (List.mem_flatMap.2 ⟨y, hsub y hy, hqy⟩) e
    · refine nodup_flatMap_of_unique (g := fun p => (h1.core.pt p).pickup) hc.nodup ?_ ?_
      · exact fun s hs => (hw.sets s (hsub s hs)).1
      · intro s hs p hp
        exact (hw.pick' (hsub s hs) hp).2.1

end Draft

end Jinete
