import Verif.Proofs.RouteEdit

/-!
# Well-formedness through order, and `append_planned_trip`
-/

set_option autoImplicit false

namespace Jinete

variable {E : Env}

/-! ## Order in a list as a two-element sublist -/

theorem before_of_split {l P S : List Nat} {s d : Nat} (e : l = P ++ s :: S) (hd : d ∈ S) : [s, d].Sublist l := by
  rw [e]
  exact ((List.singleton_sublist.2 hd).cons_cons s).trans (List.sublist_append_right _ _)

theorem split_of_before {l P S : List Nat} {s d : Nat} (hn : l.Nodup) (e : l = P ++ s :: S)
    (h : [s, d].Sublist l) : d ∈ S := by
  subst e
  induction P with
  | nil =>
    simp only [List.nil_append] at h hn
    cases h with
    | cons _ h =>
      exact absurd (List.singleton_sublist.1 ((List.singleton_sublist.2 (by simp)).trans h)) (List.nodup_cons.1 hn).1
    | cons_cons _ h => exact List.singleton_sublist.1 h
  | cons x P ih =>
    simp only [List.cons_append] at h hn
    cases h with
    | cons _ h => exact ih (List.nodup_cons.1 hn).2 h
    | cons_cons _ h => exact absurd (List.mem_append_right _ (by simp)) (List.nodup_cons.1 hn).1

theorem split_of_after {l P S : List Nat} {s u : Nat} (hn : l.Nodup) (e : l = P ++ s :: S)
    (h : [u, s].Sublist l) : u ∈ P := by
  have hu : u ∈ l := h.subset (by simp)
  have hs : s ∉ S := by
    rw [e] at hn
    exact (List.nodup_cons.1 hn.of_append_right).1
  rw [e] at hu
  rcases List.mem_append.1 hu with hu | hu
  · exact hu
  · exfalso
    rcases List.mem_cons.1 hu with rfl | hu
    · exact hs (split_of_before hn e h)
    · obtain ⟨a, b, rfl⟩ := List.append_of_mem hu
      have := split_of_before hn (P := P ++ s :: a) (S := b) (by rw [e]; simp) h
      exact hs (by simp [this])

section
variable {c : Core} {r : Nat}

theorem WellFormed.pick' (hw : WellFormed c r) {s p : Nat} (hs : s ∈ (c.route r).stops) (hp : p ∈ (c.stop s).pickups) :
    p < c.nPt ∧ (c.pt p).pickup = some s ∧ ∃ d, [s, d].Sublist (c.route r).stops ∧ (c.pt p).delivery = some d ∧
      p ∈ (c.stop d).deliveries := by
  obtain ⟨P, S, e⟩ := List.append_of_mem hs
  obtain ⟨h1, h2, d, hd, h3⟩ := hw.pick P s S e p hp
  exact ⟨h1, h2, d, before_of_split e hd, h3⟩

theorem WellFormed.drop' (hw : WellFormed c r) {s p : Nat} (hs : s ∈ (c.route r).stops) (hp : p ∈ (c.stop s).deliveries) :
    p < c.nPt ∧ (c.pt p).delivery = some s ∧ ∃ u, [u, s].Sublist (c.route r).stops ∧ (c.pt p).pickup = some u ∧
      p ∈ (c.stop u).pickups := by
  obtain ⟨P, S, e⟩ := List.append_of_mem hs
  obtain ⟨h1, h2, u, hu, h3⟩ := hw.drop P s S e p hp
  obtain ⟨a, b, rfl⟩ := List.append_of_mem hu
  exact ⟨h1, h2, u, before_of_split (P := a) (S := b ++ s :: S) (by rw [e]; simp) (by simp), h3⟩

/-- Building a well formed route from order facts. -/
theorem WellFormed.of_order (hc : Chained c r) (hr : r < c.nRoute) (hlen : 2 ≤ (c.route r).stops.length)
    (hdep : ∀ s ∈ (c.route r).stops.head?, (c.stop s).pickups = [] ∧ (c.stop s).deliveries = [])
    (hpick : ∀ s ∈ (c.route r).stops, ∀ p ∈ (c.stop s).pickups, p < c.nPt ∧ (c.pt p).pickup = some s ∧
      ∃ d, [s, d].Sublist (c.route r).stops ∧ (c.pt p).delivery = some d ∧ p ∈ (c.stop d).deliveries)
    (hdrop : ∀ s ∈ (c.route r).stops, ∀ p ∈ (c.stop s).deliveries, p < c.nPt ∧ (c.pt p).delivery = some s ∧
      ∃ u, [u, s].Sublist (c.route r).stops ∧ (c.pt p).pickup = some u ∧ p ∈ (c.stop u).pickups)
    (hsets : ∀ s ∈ (c.route r).stops, (c.stop s).pickups.Nodup ∧ (c.stop s).deliveries.Nodup)
    (htrips : ((itinerary c r).flatMap Visit.picks).Nodup) : WellFormed c r where
  toChained := hc
  exists_ := hr
  length := hlen
  depot := hdep
  pick := by
    intro P s S e p hp
    obtain ⟨h1, h2, d, hd, h3⟩ := hpick s (by rw [e]; simp) p hp
    exact ⟨h1, h2, d, split_of_before hc.nodup e hd, h3⟩
  drop := by
    intro P s S e p hp
    obtain ⟨h1, h2, u, hu, h3⟩ := hdrop s (by rw [e]; simp) p hp
    exact ⟨h1, h2, u, split_of_after hc.nodup e hu, h3⟩
  sets := hsets
  trips := htrips

/-- Well-formedness only reads the attributes of the route, of its stops and of their planned trips. -/
theorem WellFormed.congr {c c' : Core} {r : Nat} (hw : WellFormed c r) (hroute : c'.route r = c.route r)
    (h1 : c.nStop ≤ c'.nStop) (h2 : c.nPt ≤ c'.nPt) (h3 : c.nRoute ≤ c'.nRoute)
    (hst : ∀ s ∈ (c.route r).stops, (c'.stop s).pickups = (c.stop s).pickups ∧
      (c'.stop s).deliveries = (c.stop s).deliveries ∧ (c'.stop s).previous = (c.stop s).previous ∧
      (c'.stop s).vehicle = (c.stop s).vehicle)
    (hpt : ∀ p ∈ (c.route r).stops.flatMap (fun s => (c.stop s).pickups), c'.pt p = c.pt p) : WellFormed c' r := by
  have hpt' : ∀ s ∈ (c.route r).stops, ∀ p ∈ (c.stop s).pickups, c'.pt p = c.pt p :=
    fun s hs p hp => hpt p (List.mem_flatMap.2 ⟨s, hs, hp⟩)
  have hptd : ∀ s ∈ (c.route r).stops, ∀ p ∈ (c.stop s).deliveries, c'.pt p = c.pt p :=
    fun s hs p hp => hpt p (hw.deliveries_sub_pickups p (List.mem_flatMap.2 ⟨s, hs, hp⟩))
  refine WellFormed.of_order ?_ (lt_of_lt_of_le hw.exists_ h3) (by rw [hroute]; exact hw.length) ?_ ?_ ?_ ?_ ?_
  · constructor
    · rw [hroute]; exact hw.nodup
    · rw [hroute]; exact fun s hs => lt_of_lt_of_le (hw.alloc s hs) h1
    · rw [hroute]; exact hw.linked.congr fun s hs => (hst s hs).2.2.1
    · rw [hroute]; exact fun s hs => by rw [(hst s hs).2.2.2]; exact hw.vehicle s hs
  · rw [hroute]
    intro s hs
    have hm : s ∈ (c.route r).stops := List.mem_of_mem_head? hs
    rw [(hst s hm).1, (hst s hm).2.1]
    exact hw.depot s hs
  · rw [hroute]
    intro s hs p hp
    rw [(hst s hs).1] at hp
    obtain ⟨a1, a2, d, a3, a4, a5⟩ := hw.pick' hs hp
    rw [hpt' s hs p hp]
    refine ⟨lt_of_lt_of_le a1 h2, a2, d, a3, a4, ?_⟩
    rw [(hst d (a3.subset (by simp))).2.1]; exact a5
  · rw [hroute]
    intro s hs p hp
    rw [(hst s hs).2.1] at hp
    obtain ⟨a1, a2, u, a3, a4, a5⟩ := hw.drop' hs hp
    rw [hptd s hs p hp]
    refine ⟨lt_of_lt_of_le a1 h2, a2, u, a3, a4, ?_⟩
    rw [(hst u (a3.subset (by simp))).1]; exact a5
  · rw [hroute]
    intro s hs
    rw [(hst s hs).1, (hst s hs).2.1]; exact hw.sets s hs
  · have : (itinerary c' r).flatMap Visit.picks = (itinerary c r).flatMap Visit.picks := by
      rw [itinerary, itinerary, flatMap_visit_picks, flatMap_visit_picks, hroute]
      have e1 : ((c.route r).stops.flatMap fun s => (c'.stop s).pickups) = (c.route r).stops.flatMap fun s => (c.stop s).pickups := by
        apply List.flatMap_congr
        intro s hs; exact (hst s hs).1
      rw [e1]
      apply List.map_congr_left
      intro p hp
      rw [hpt p hp]
    rw [this]; exact hw.trips

end

/-! ## `append_planned_trip` -/

/-- The planned trip `p` with its own fresh stops `u` and `d` is ready to be appended to route `r`, whose
stops are `pre ++ mid ++ suf`: `u` goes right after `pre`, `d` right before `suf`. -/
structure Ready (c : Core) (r p u d : Nat) (pre mid suf : List Nat) : Prop where
  stops : (c.route r).stops = pre ++ mid ++ suf
  pre_ne : pre ≠ []
  suf_ne : suf ≠ []
  pickup : (c.pt p).pickup = some u
  delivery : (c.pt p).delivery = some d
  p_alloc : p < c.nPt
  u_alloc : u < c.nStop
  d_alloc : d < c.nStop
  u_new : u ∉ (c.route r).stops
  d_new : d ∉ (c.route r).stops
  u_ne_d : u ≠ d
  u_vehicle : (c.stop u).vehicle = (c.route r).vehicle
  d_vehicle : (c.stop d).vehicle = (c.route r).vehicle
  u_pickups : (c.stop u).pickups = [p]
  u_deliveries : (c.stop u).deliveries = []
  d_pickups : (c.stop d).pickups = []
  d_deliveries : (c.stop d).deliveries = [p]
  u_previous : (c.stop u).previous = pre.getLast?
  d_previous : (c.stop d).previous = (u :: mid).getLast?

/-- The heap after inserting `u` and then `d`. -/
def afterAppend (h : Heap) (r u d : Nat) (pre mid suf : List Nat) : Heap :=
  let h1 := afterInsert h r u ((mid ++ suf).head?.getD 0) pre (mid ++ suf).tail
  afterInsert h1 r d (suf.head?.getD 0) (pre ++ u :: mid) suf.tail

theorem Ready.congr {c c' : Core} {r p u d : Nat} {pre mid suf : List Nat} (h : Ready c r p u d pre mid suf) (e : c' = c) :
    Ready c' r p u d pre mid suf := by subst e; exact h

section
variable {h : Heap} {r p u d : Nat} {pre mid suf : List Nat}

/-- Inserting both stops, in one go. -/
theorem Ready.inserts (hr : Ready h.core r p u d pre mid suf) (hc : Chained h.core r) (ha : CachesAgree E h r) :
    ∃ x y h1, insertStop r u h = (.ok x, h1) ∧ insertStop r d h1 = (.ok y, afterAppend h r u d pre mid suf) ∧
      h1.core.pt = h.core.pt ∧
      Chained (afterAppend h r u d pre mid suf).core r ∧ CachesAgree E (afterAppend h r u d pre mid suf) r := by
  obtain ⟨pre', a, hpre⟩ : ∃ pre' a, pre = pre' ++ [a] := by
    rcases List.eq_nil_or_concat pre with h0 | ⟨l, x, h0⟩
    · exact absurd h0 hr.pre_ne
    · exact ⟨l, x, by simpa using h0⟩
  obtain ⟨f, suf', hsuf⟩ : ∃ f suf', suf = f :: suf' := by
    cases suf with
    | nil => exact absurd rfl hr.suf_ne
    | cons f s => exact ⟨f, s, rfl⟩
  obtain ⟨g, rest, hms⟩ : ∃ g rest, mid ++ suf = g :: rest := by
    cases hh : mid ++ suf with
    | nil => simp [hsuf] at hh
    | cons g s => exact ⟨g, s, rfl⟩
  have hst : (h.core.route r).stops = pre ++ g :: rest := by rw [hr.stops, List.append_assoc, hms]
  -- first insertion
  have run1 := insertStop_run (h := h) (r := r) (s := u) (p := a) (f := g) (pre := pre') (suf := rest) hc.nodup
    (by rw [hst, hpre]; simp) (by rw [hr.u_previous, hpre]; simp)
    (by rw [hr.u_pickups, hr.u_deliveries]; simp)
  rw [← hpre] at run1
  have ok1 := afterInsert_ok (E := E) (s := u) hc ha hst hr.u_previous hr.u_new hr.u_alloc hr.u_vehicle
  have hdg : d ≠ g := by rintro rfl; exact hr.d_new (by rw [hst]; simp)
  have hd1 : (afterInsert h r u g pre rest).core.stop d = h.core.stop d := by
    rw [afterInsert_stop, if_neg hdg]
  -- second insertion
  have hst1 : ((afterInsert h r u g pre rest).core.route r).stops = (pre ++ u :: mid) ++ f :: suf' := by
    rw [afterInsert_stops, ← hms, hsuf]; simp
  obtain ⟨q, b, hqb⟩ : ∃ q b, u :: mid = q ++ [b] := by
    rcases List.eq_nil_or_concat (u :: mid) with h0 | ⟨l, x, h0⟩
    · simp at h0
    · exact ⟨l, x, by simpa using h0⟩
  have run2 := insertStop_run (h := afterInsert h r u g pre rest) (r := r) (s := d) (p := b) (f := f)
    (pre := pre ++ q) (suf := suf') ok1.1.nodup (by rw [hst1, hqb]; simp)
    (by rw [hd1, hr.d_previous, hqb]; simp) (by rw [hd1, hr.d_pickups]; simp)
  have hpq : pre ++ q ++ [b] = pre ++ u :: mid := by rw [List.append_assoc, ← hqb]
  rw [hpq] at run2
  have ok2 := afterInsert_ok (E := E) (s := d) ok1.1 ok1.2 hst1
    (by rw [hd1, hr.d_previous, List.getLast?_append]; simp [hqb])
    (by
      rw [hst1]; intro hm
      have : d ∈ u :: (h.core.route r).stops := by
        rw [hr.stops, hsuf]
        simp only [List.mem_append, List.mem_cons] at hm ⊢
        tauto
      rcases List.mem_cons.1 this with h0 | h0
      · exact hr.u_ne_d h0.symm
      · exact hr.d_new h0)
    (by rw [afterInsert_nStop]; exact hr.d_alloc)
    (by rw [hd1, afterInsert_vehicle]; exact hr.d_vehicle)
  have haa : afterAppend h r u d pre mid suf = afterInsert (afterInsert h r u g pre rest) r d f (pre ++ u :: mid) suf' := by
    unfold afterAppend
    rw [hms, hsuf]
    rfl
  rw [haa]
  exact ⟨_, _, _, run1, run2, afterInsert_pt, ok2⟩

/-- `append_planned_trip` on a chained route: read times, insert both stops, read times. -/
theorem appendPlannedTrip_run (hE : EnvOK E) (hr : Ready h.core r p u d pre mid suf) (hc : Chained h.core r)
    (ha : CachesAgree E h r) :
    ∃ h1 h', appendPlannedTrip E r p h = (.ok (), h') ∧ Grows E h h1 ∧
      Grows E (afterAppend h1 r u d pre mid suf) h' ∧
      Chained (afterAppend h1 r u d pre mid suf).core r ∧ CachesAgree E (afterAppend h1 r u d pre mid suf) r := by
  unfold appendPlannedTrip
  simp only [Py.read_bind]
  rw [hr.pickup, hr.delivery]
  simp only [Option.isSome_some]
  rw [Py.bind_ok (Py.assert_true h), Py.bind_ok (Py.assert_true h), linkedCheck_of_linked hc.linked,
    Py.bind_ok (Py.assert_true h)]
  obtain ⟨h1, e1, g1⟩ := timesCheck_reads hE hc [] (h.core.route r).stops rfl h rfl ((cachesAgree_iff hc).1 ha)
  rw [Py.bind_ok e1, Py.bind_ok (Py.assert_true h1)]
  have hc1 : Chained h1.core r := by rw [g1.core]; exact hc
  obtain ⟨x, y, h2, r1, r2, hpt, ok1, ok2⟩ := (hr.congr g1.core).inserts hc1 (g1.agree hc ha)
  have q1 : ptPickup p h1 = (.ok u, h1) := by simp [ptPickup, g1.core, hr.pickup, Py.unwrap]
  have q2 : ptDelivery p h2 = (.ok d, h2) := by simp [ptDelivery, hpt, g1.core, hr.delivery, Py.unwrap]
  rw [Py.bind_ok q1, Py.bind_ok r1, Py.bind_ok q2, Py.bind_ok r2]
  simp only [Py.read_bind]
  rw [linkedCheck_of_linked ok1.linked, Py.bind_ok (Py.assert_true _)]
  obtain ⟨h3, e3, g3⟩ := timesCheck_reads hE ok1 [] _ rfl (afterAppend h1 r u d pre mid suf) rfl
    ((cachesAgree_iff ok1).1 ok2)
  rw [Py.bind_ok e3]
  exact ⟨h1, h3, Py.assert_true h3, g1, g3, ok1, ok2⟩

/-! ### Attributes after appending -/

@[simp] theorem afterAppend_pt : (afterAppend h r u d pre mid suf).core.pt = h.core.pt := by simp [afterAppend]
@[simp] theorem afterAppend_nStop : (afterAppend h r u d pre mid suf).core.nStop = h.core.nStop := by simp [afterAppend]
@[simp] theorem afterAppend_nPt : (afterAppend h r u d pre mid suf).core.nPt = h.core.nPt := by simp [afterAppend]
@[simp] theorem afterAppend_nRoute : (afterAppend h r u d pre mid suf).core.nRoute = h.core.nRoute := by simp [afterAppend]
@[simp] theorem afterAppend_sfeas : (afterAppend h r u d pre mid suf).sfeas = h.sfeas := by simp [afterAppend]
@[simp] theorem afterAppend_rfeas : (afterAppend h r u d pre mid suf).rfeas = h.rfeas := by simp [afterAppend]
@[simp] theorem afterAppend_vehicle :
    ((afterAppend h r u d pre mid suf).core.route r).vehicle = (h.core.route r).vehicle := by simp [afterAppend]

theorem afterAppend_visit (x : Nat) : visitOf (afterAppend h r u d pre mid suf).core x = visitOf h.core x := by
  simp only [afterAppend, afterInsert_visit]

theorem afterAppend_vehicleOf (x : Nat) :
    ((afterAppend h r u d pre mid suf).core.stop x).vehicle = (h.core.stop x).vehicle := by
  simp only [afterAppend, afterInsert_vehicleOf]

theorem afterInsert_sets (h : Heap) (r s f : Nat) (pre suf : List Nat) (x : Nat) :
    ((afterInsert h r s f pre suf).core.stop x).pickups = (h.core.stop x).pickups ∧
    ((afterInsert h r s f pre suf).core.stop x).deliveries = (h.core.stop x).deliveries ∧
    ((afterInsert h r s f pre suf).core.stop x).start = (h.core.stop x).start ∧
    ((afterInsert h r s f pre suf).core.stop x).position = (h.core.stop x).position := by
  rw [afterInsert_stop]; by_cases hx : x = f <;> simp [hx]

theorem afterAppend_sets (x : Nat) :
    ((afterAppend h r u d pre mid suf).core.stop x).pickups = (h.core.stop x).pickups ∧
    ((afterAppend h r u d pre mid suf).core.stop x).deliveries = (h.core.stop x).deliveries ∧
    ((afterAppend h r u d pre mid suf).core.stop x).start = (h.core.stop x).start ∧
    ((afterAppend h r u d pre mid suf).core.stop x).position = (h.core.stop x).position := by
  obtain ⟨a1, a2, a3, a4⟩ := afterInsert_sets (afterInsert h r u ((mid ++ suf).head?.getD 0) pre (mid ++ suf).tail)
    r d (suf.head?.getD 0) (pre ++ u :: mid) suf.tail x
  obtain ⟨b1, b2, b3, b4⟩ := afterInsert_sets h r u ((mid ++ suf).head?.getD 0) pre (mid ++ suf).tail x
  exact ⟨a1.trans b1, a2.trans b2, a3.trans b3, a4.trans b4⟩

theorem afterAppend_stops (hs : suf ≠ []) :
    ((afterAppend h r u d pre mid suf).core.route r).stops = pre ++ u :: (mid ++ d :: suf) := by
  cases suf with
  | nil => exact absurd rfl hs
  | cons f s => simp [afterAppend]

theorem afterAppend_route_ne {r' : Nat} (hr : r' ≠ r) :
    (afterAppend h r u d pre mid suf).core.route r' = h.core.route r' := by
  simp only [afterAppend, afterInsert_route_ne hr]

theorem head_tail_of_ne {l : List Nat} (h : l ≠ []) : l.head?.getD 0 :: l.tail = l := by
  cases l with
  | nil => exact absurd rfl h
  | cons x l => rfl

/-- Stops that are neither new nor after the insertion point keep everything. -/
theorem afterAppend_same (hs : suf ≠ []) {x : Nat} (hx : x ∉ u :: (mid ++ d :: suf)) :
    SameStop h (afterAppend h r u d pre mid suf) x := by
  have hms : mid ++ suf ≠ [] := by simp [hs]
  refine (afterInsert_same (s := u) (f := (mid ++ suf).head?.getD 0) (pre := pre) (suf := (mid ++ suf).tail) ?_).trans
    (afterInsert_same ?_)
  · rw [head_tail_of_ne hms]
    simp only [List.mem_cons, List.mem_append] at hx ⊢; tauto
  · rw [head_tail_of_ne hs]
    simp only [List.mem_cons, List.mem_append] at hx ⊢; tauto

/-- `previous` after appending changes only at the two stops that follow the new ones. -/
theorem afterAppend_previous {x : Nat} (h1 : x ≠ (mid ++ suf).head?.getD 0) (h2 : x ≠ suf.head?.getD 0) :
    (afterAppend h r u d pre mid suf).core.stop x = h.core.stop x := by
  simp only [afterAppend]
  rw [afterInsert_stop, if_neg h2, afterInsert_stop, if_neg h1]

/-- Appending keeps a route well formed. -/
theorem Ready.wellFormed (hr : Ready h.core r p u d pre mid suf) (hw : WellFormed h.core r) (ha : CachesAgree E h r)
    (ht : (h.core.pt p).trip ∉ (itinerary h.core r).flatMap Visit.picks) :
    WellFormed (afterAppend h r u d pre mid suf).core r := by
  obtain ⟨_, _, _, _, _, _, hc, _⟩ := hr.inserts hw.toChained ha
  have hs := afterAppend_stops (h := h) (r := r) (u := u) (d := d) (pre := pre) (mid := mid) hr.suf_ne
  have hsub : (h.core.route r).stops.Sublist (pre ++ u :: (mid ++ d :: suf)) := by
    rw [hr.stops, List.append_assoc]
    exact (List.Sublist.refl pre).append (((List.Sublist.refl mid).append (List.sublist_cons_self d suf)).cons u)
  have hud : [u, d].Sublist (pre ++ u :: (mid ++ d :: suf)) :=
    before_of_split (P := pre) rfl (by simp)
  have hmem : ∀ x, x ∈ pre ++ u :: (mid ++ d :: suf) → x = u ∨ x = d ∨ x ∈ (h.core.route r).stops := by
    intro x hx
    rw [hr.stops]
    simp only [List.mem_append, List.mem_cons] at hx ⊢
    tauto
  have hsets : ∀ x, ((afterAppend h r u d pre mid suf).core.stop x).pickups = (h.core.stop x).pickups ∧
      ((afterAppend h r u d pre mid suf).core.stop x).deliveries = (h.core.stop x).deliveries :=
    fun x => ⟨(afterAppend_sets x).1, (afterAppend_sets x).2.1⟩
  refine WellFormed.of_order hc ?_ ?_ ?_ ?_ ?_ ?_ ?_
  · rw [afterAppend_nRoute]; exact hw.exists_
  · rw [hs]
    have := hw.length
    rw [hr.stops] at this
    simp at this ⊢; omega
  · rw [hs]
    intro s hsh
    obtain ⟨a, pre', hpre⟩ : ∃ a pre', pre = a :: pre' := by
      cases hp : pre with
      | nil => exact absurd hp hr.pre_ne
      | cons a t => exact ⟨a, t, rfl⟩
    rw [(hsets s).1, (hsets s).2]
    apply hw.depot s
    rw [hr.stops, hpre]
    rw [hpre] at hsh
    simpa using hsh
  · rw [hs]
    intro s hsm q hq
    rw [(hsets s).1] at hq
    rw [afterAppend_pt, afterAppend_nPt]
    rcases hmem s hsm with rfl | rfl | hso
    · rw [hr.u_pickups, List.mem_singleton] at hq
      subst hq
      refine ⟨hr.p_alloc, hr.pickup, d, hud, hr.delivery, ?_⟩
      rw [(hsets d).2, hr.d_deliveries]; simp
    · rw [hr.d_pickups] at hq; simp at hq
    · obtain ⟨a1, a2, d', a3, a4, a5⟩ := hw.pick' hso hq
      exact ⟨a1, a2, d', a3.trans hsub, a4, by rw [(hsets d').2]; exact a5⟩
  · rw [hs]
    intro s hsm q hq
    rw [(hsets s).2] at hq
    rw [afterAppend_pt, afterAppend_nPt]
    rcases hmem s hsm with rfl | rfl | hso
    · rw [hr.u_deliveries] at hq; simp at hq
    · rw [hr.d_deliveries, List.mem_singleton] at hq
      subst hq
      refine ⟨hr.p_alloc, hr.delivery, u, hud, hr.pickup, ?_⟩
      rw [(hsets u).1, hr.u_pickups]; simp
    · obtain ⟨a1, a2, d', a3, a4, a5⟩ := hw.drop' hso hq
      exact ⟨a1, a2, d', a3.trans hsub, a4, by rw [(hsets d').1]; exact a5⟩
  · rw [hs]
    intro s hsm
    rw [(hsets s).1, (hsets s).2]
    rcases hmem s hsm with rfl | rfl | hso
    · rw [hr.u_pickups, hr.u_deliveries]; simp
    · rw [hr.d_pickups, hr.d_deliveries]; simp
    · exact hw.sets s hso
  · have hperm : ((itinerary (afterAppend h r u d pre mid suf).core r).flatMap Visit.picks).Perm
        ((h.core.pt p).trip :: (itinerary h.core r).flatMap Visit.picks) := by
      have e1 : itinerary (afterAppend h r u d pre mid suf).core r =
          (pre ++ u :: (mid ++ d :: suf)).map (visitOf h.core) := by
        unfold itinerary
        rw [hs]
        exact List.map_congr_left fun x _ => afterAppend_visit x
      have e2 : itinerary h.core r = (pre ++ mid ++ suf).map (visitOf h.core) := by
        unfold itinerary; rw [hr.stops]
      have e3 : (visitOf h.core u).picks = [(h.core.pt p).trip] := by simp [visitOf, hr.u_pickups]
      have e4 : (visitOf h.core d).picks = [] := by simp [visitOf, hr.d_pickups]
      rw [e1, e2]
      simp only [List.map_append, List.map_cons, List.flatMap_append, List.flatMap_cons, e3, e4, List.nil_append,
        List.singleton_append, List.append_assoc]
      exact List.perm_middle
    exact hperm.nodup_iff.2 (List.nodup_cons.2 ⟨ht, hw.trips⟩)

end

end Jinete
