import Verif.Proofs.Chain
import Mathlib.Algebra.Order.BigOperators.Group.List

/-!
# Consequences of well-formedness; loads
-/

set_option autoImplicit false

namespace Jinete

variable {E : Env}

/-- Well-formedness of an itinerary: no trip is picked up twice or dropped twice, a trip is dropped only
after being picked up, and every trip picked up is dropped later. -/
structure ItinOK (l : List Visit) : Prop where
  picks : (l.flatMap Visit.picks).Nodup
  drops : (l.flatMap Visit.drops).Nodup
  dropAfter : ∀ a v b, l = a ++ v :: b → ∀ t ∈ v.drops, t ∈ a.flatMap Visit.picks
  pickBefore : ∀ a v b, l = a ++ v :: b → ∀ t ∈ v.picks, t ∈ b.flatMap Visit.drops

theorem nodup_flatMap_of_unique {l : List Nat} {f : Nat → List Nat} {g : Nat → Option Nat} (hl : l.Nodup)
    (h1 : ∀ s ∈ l, (f s).Nodup) (h2 : ∀ s ∈ l, ∀ p ∈ f s, g p = some s) : (l.flatMap f).Nodup := by
  rw [List.nodup_flatMap]
  refine ⟨h1, List.Pairwise.imp_of_mem ?_ hl⟩
  intro a b ha hb hab
  simp only [Function.onFun, List.disjoint_left]
  intro p hp hp'
  have := (h2 a ha p hp).symm.trans (h2 b hb p hp')
  exact hab (by simpa using this)

theorem flatMap_visit_picks (c : Core) (l : List Nat) :
    (l.map (visitOf c)).flatMap Visit.picks = (l.flatMap fun s => (c.stop s).pickups).map fun p => (c.pt p).trip := by
  simp [List.flatMap_map, List.map_flatMap, visitOf]

theorem flatMap_visit_drops (c : Core) (l : List Nat) :
    (l.map (visitOf c)).flatMap Visit.drops = (l.flatMap fun s => (c.stop s).deliveries).map fun p => (c.pt p).trip := by
  simp [List.flatMap_map, List.map_flatMap, visitOf]

section
variable {c : Core} {r : Nat} (hw : WellFormed c r)
include hw

theorem WellFormed.pickups_nodup : ((c.route r).stops.flatMap fun s => (c.stop s).pickups).Nodup := by
  refine nodup_flatMap_of_unique (g := fun p => (c.pt p).pickup) hw.nodup (fun s hs => (hw.sets s hs).1) ?_
  intro s hs p hp
  obtain ⟨pre, suf, e⟩ := List.append_of_mem hs
  exact (hw.pick pre s suf e p hp).2.1

theorem WellFormed.deliveries_nodup : ((c.route r).stops.flatMap fun s => (c.stop s).deliveries).Nodup := by
  refine nodup_flatMap_of_unique (g := fun p => (c.pt p).delivery) hw.nodup (fun s hs => (hw.sets s hs).2) ?_
  intro s hs p hp
  obtain ⟨pre, suf, e⟩ := List.append_of_mem hs
  exact (hw.drop pre s suf e p hp).2.1

theorem WellFormed.deliveries_sub_pickups :
    ∀ p ∈ (c.route r).stops.flatMap (fun s => (c.stop s).deliveries),
      p ∈ (c.route r).stops.flatMap fun s => (c.stop s).pickups := by
  intro p hp
  obtain ⟨s, hs, hp⟩ := List.mem_flatMap.1 hp
  obtain ⟨pre, suf, e⟩ := List.append_of_mem hs
  obtain ⟨_, _, u, hu, _, hpu⟩ := hw.drop pre s suf e p hp
  exact List.mem_flatMap.2 ⟨u, by rw [e]; simp [hu], hpu⟩

/-- The planned trips of a well formed route have distinct trips. -/
theorem WellFormed.trip_inj {p q : Nat} (hp : p ∈ (c.route r).stops.flatMap fun s => (c.stop s).pickups)
    (hq : q ∈ (c.route r).stops.flatMap fun s => (c.stop s).pickups) (h : (c.pt p).trip = (c.pt q).trip) : p = q := by
  have := hw.trips
  rw [itinerary, flatMap_visit_picks] at this
  exact List.inj_on_of_nodup_map this hp hq h

theorem WellFormed.itinOK : ItinOK (itinerary c r) where
  picks := hw.trips
  drops := by
    rw [itinerary, flatMap_visit_drops]
    refine List.Nodup.map_on ?_ hw.deliveries_nodup
    intro p hp q hq h
    exact hw.trip_inj (hw.deliveries_sub_pickups p hp) (hw.deliveries_sub_pickups q hq) h
  dropAfter := by
    intro a v b e t ht
    obtain ⟨a', l', e1, rfl, e2⟩ := List.map_eq_append_iff.1 e
    obtain ⟨s, b', rfl, rfl, rfl⟩ := List.map_eq_cons_iff.1 e2
    simp only [visitOf, List.mem_map] at ht
    obtain ⟨p, hp, rfl⟩ := ht
    obtain ⟨_, _, u, hu, _, hpu⟩ := hw.drop a' s b' e1 p hp
    rw [flatMap_visit_picks]
    exact List.mem_map_of_mem (List.mem_flatMap.2 ⟨u, hu, hpu⟩)
  pickBefore := by
    intro a v b e t ht
    obtain ⟨a', l', e1, rfl, e2⟩ := List.map_eq_append_iff.1 e
    obtain ⟨s, b', rfl, rfl, rfl⟩ := List.map_eq_cons_iff.1 e2
    simp only [visitOf, List.mem_map] at ht
    obtain ⟨p, hp, rfl⟩ := ht
    obtain ⟨_, _, d, hd, _, hpd⟩ := hw.pick a' s b' e1 p hp
    rw [flatMap_visit_drops]
    exact List.mem_map_of_mem (List.mem_flatMap.2 ⟨d, hd, hpd⟩)

end

/-! ## Loads of a well formed itinerary -/

theorem tripsCapacity_append (a b : List Nat) : tripsCapacity E (a ++ b) = tripsCapacity E a + tripsCapacity E b := by
  simp [tripsCapacity]

theorem loadAfter_eq (l : List Visit) (q : ℚ) :
    loadAfter E q l = q + tripsCapacity E (l.flatMap Visit.picks) - tripsCapacity E (l.flatMap Visit.drops) := by
  induction l generalizing q with
  | nil => simp [loadAfter, tripsCapacity]
  | cons v l ih =>
    simp only [loadAfter, ih, List.flatMap_cons, tripsCapacity_append]; ring

/-- Removing a duplicate-free part from a duplicate-free list. -/
theorem tripsCapacity_sub {P D : List Nat} (hP : P.Nodup) (hD : D.Nodup) (hsub : ∀ t ∈ D, t ∈ P) :
    tripsCapacity E P - tripsCapacity E D = tripsCapacity E (P.filter fun t => !D.contains t) := by
  have h1 : (P.filter fun t => D.contains t).Perm D := by
    rw [List.perm_ext_iff_of_nodup (hP.filter _) hD]
    intro t; simp; exact hsub t
  have h2 : (P.filter (fun t => D.contains t) ++ P.filter fun t => !D.contains t).Perm P :=
    List.filter_append_perm _ _
  have e1 : tripsCapacity E (P.filter fun t => D.contains t) = tripsCapacity E D := by
    unfold tripsCapacity; exact (h1.map _).sum_eq
  have e2 : tripsCapacity E (P.filter (fun t => D.contains t) ++ P.filter fun t => !D.contains t) = tripsCapacity E P := by
    unfold tripsCapacity; exact (h2.map _).sum_eq
  rw [tripsCapacity_append, e1] at e2
  linarith

theorem ItinOK.prefix {a b : List Visit} (h : ItinOK (a ++ b)) :
    (a.flatMap Visit.picks).Nodup ∧ (a.flatMap Visit.drops).Nodup ∧
    ∀ t ∈ a.flatMap Visit.drops, t ∈ a.flatMap Visit.picks := by
  refine ⟨?_, ?_, ?_⟩
  · have := h.picks; rw [List.flatMap_append] at this; exact this.of_append_left
  · have := h.drops; rw [List.flatMap_append] at this; exact this.of_append_left
  · intro t ht
    obtain ⟨v, hv, htv⟩ := List.mem_flatMap.1 ht
    obtain ⟨x, y, rfl⟩ := List.append_of_mem hv
    have := h.dropAfter x v (y ++ b) (by simp) t htv
    rw [List.flatMap_append]
    exact List.mem_append_left _ this

/-- The load after a prefix is the capacity of the trips on board. -/
theorem ItinOK.load_prefix {a b : List Visit} (h : ItinOK (a ++ b)) :
    loadAfter E 0 a = tripsCapacity E ((a.flatMap Visit.picks).filter fun t => !(a.flatMap Visit.drops).contains t) := by
  obtain ⟨h1, h2, h3⟩ := h.prefix
  rw [loadAfter_eq, ← tripsCapacity_sub h1 h2 h3]; ring

theorem tripsCapacity_nonneg (hE : EnvOK E) (l : List Nat) : 0 ≤ tripsCapacity E l := by
  apply List.sum_nonneg
  simp only [List.mem_map]
  rintro _ ⟨t, _, rfl⟩
  exact hE.capacity t

theorem WellFormed.load_nonneg (hE : EnvOK E) {c : Core} {r : Nat} (hw : WellFormed c r) {pre suf : List Nat} {s : Nat}
    (e : (c.route r).stops = pre ++ s :: suf) : 0 ≤ loadRev E c s pre.reverse := by
  have hi := hw.itinOK
  have e' : itinerary c r = (pre ++ [s]).map (visitOf c) ++ suf.map (visitOf c) := by simp [itinerary, e]
  rw [e'] at hi
  rw [← loadAfter_chain, hi.load_prefix]
  exact tripsCapacity_nonneg hE _

/-! ## Readers on a route -/

section
variable {c : Core} {r : Nat} {pre suf : List Nat} {s : Nat}

theorem Chained.departure_reads (hc : Chained c r) (e : (c.route r).stops = pre ++ s :: suf) :
    Reads E c (c.route r).stops (departure E s) (tmRev E c s pre.reverse).dep :=
  Jinete.departure_reads (hc.anc e) (sub_of_split e) (hc.len e)

theorem Chained.arrival_reads (hc : Chained c r) (e : (c.route r).stops = pre ++ s :: suf) :
    Reads E c (c.route r).stops (arrival E s) (tmRev E c s pre.reverse).arr :=
  Jinete.arrival_reads (hc.anc e) (sub_of_split e) (hc.len e)

theorem Chained.starting_reads (hc : Chained c r) (e : (c.route r).stops = pre ++ s :: suf) :
    Reads E c (c.route r).stops (starting E s) (tmRev E c s pre.reverse).start :=
  Jinete.starting_reads (hc.anc e) (sub_of_split e) (hc.len e)

theorem Chained.waitingTime_reads (hc : Chained c r) (e : (c.route r).stops = pre ++ s :: suf) :
    Reads E c (c.route r).stops (waitingTime E s) ((tmRev E c s pre.reverse).start - (tmRev E c s pre.reverse).arr) :=
  Jinete.waitingTime_reads (hc.anc e) (sub_of_split e) (hc.len e)

theorem WellFormed.capacity_reads (hE : EnvOK E) (hw : WellFormed c r) (e : (c.route r).stops = pre ++ s :: suf) :
    Reads E c (c.route r).stops (capacity E s) (loadRev E c s pre.reverse) := by
  refine Jinete.capacity_reads (hw.anc e) (sub_of_split e) (hw.len e) ?_
  rintro x anc' ⟨t, ht⟩
  have e2 : pre ++ [s] = (anc'.reverse ++ [x]) ++ t.reverse := by
    have := congrArg List.reverse ht
    simpa using this.symm
  have e3 : (c.route r).stops = anc'.reverse ++ x :: (t.reverse ++ suf) := by
    have : (c.route r).stops = (pre ++ [s]) ++ suf := by simp [e]
    rw [this, e2]; simp
  have := hw.load_nonneg hE e3
  simpa using this

end

end Jinete
