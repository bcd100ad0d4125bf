import Verif.Proofs.CloneStops

/-!
# The result of `RouteCloner.clone`
-/

set_option autoImplicit false

namespace Jinete

variable {E : Env}

/-! ## Mappers as functions -/

theorem lookup_mem {m : Mapper} {p q : Nat} (h : m.lookup p = some q) : (p, q) ∈ m := by
  induction m with
  | nil => simp at h
  | cons x m ih =>
    obtain ⟨a, b⟩ := x
    rw [List.lookup_cons] at h
    by_cases hp : p == a
    · simp only [hp] at h
      have := beq_iff_eq.1 hp
      cases h; subst this; simp
    · simp only [hp] at h
      exact List.mem_cons_of_mem _ (ih h)

theorem lookup_of_key {m : Mapper} {p : Nat} (h : p ∈ m.map Prod.fst) : ∃ q, m.lookup p = some q := by
  induction m with
  | nil => simp at h
  | cons x m ih =>
    obtain ⟨a, b⟩ := x
    rw [List.lookup_cons]
    by_cases hp : p == a
    · exact ⟨b, by simp [hp]⟩
    · simp only [hp]
      refine ih ?_
      rcases List.mem_cons.1 h with h | h
      · simp [h] at hp
      · exact h

/-- The mapper as a function. -/
def Mapper.fn (m : Mapper) (p : Nat) : Nat := (m.lookup p).getD 0

theorem Mapper.fn_lookup {m : Mapper} {p : Nat} (h : p ∈ m.map Prod.fst) : m.lookup p = some (m.fn p) := by
  obtain ⟨q, hq⟩ := lookup_of_key h
  simp [Mapper.fn, hq]

theorem Mapper.fn_mem {m : Mapper} {p : Nat} (h : p ∈ m.map Prod.fst) : (p, m.fn p) ∈ m :=
  lookup_mem (Mapper.fn_lookup h)

theorem Mapper.fn_inj {m : Mapper} (hv : (m.map Prod.snd).Nodup) {p q : Nat} (hp : p ∈ m.map Prod.fst)
    (hq : q ∈ m.map Prod.fst) (e : m.fn p = m.fn q) : p = q := by
  have := List.inj_on_of_nodup_map hv (Mapper.fn_mem hp) (Mapper.fn_mem hq) e
  exact congrArg Prod.fst this

/-! ## Order by index -/

theorem before_of_index {l : List Nat} {i j x y : Nat} (hi : l[i]? = some x) (hj : l[j]? = some y) (hij : i < j) :
    [x, y].Sublist l := by
  obtain ⟨P, S, e, rfl⟩ := split_at hi
  refine before_of_split e ?_
  rw [e, List.getElem?_append_right (by omega)] at hj
  obtain ⟨k, hk⟩ : ∃ k, j - P.length = k + 1 := ⟨j - P.length - 1, by omega⟩
  rw [hk, List.getElem?_cons_succ] at hj
  exact List.mem_of_getElem? hj

theorem index_of_split {l P S : List Nat} {s d : Nat} (e : l = P ++ s :: S) (hd : d ∈ S) :
    ∃ i j : Nat, l[i]? = some s ∧ l[j]? = some d ∧ i < j := by
  obtain ⟨k, hk⟩ := List.getElem?_of_mem hd
  refine ⟨P.length, P.length + 1 + k, by rw [e]; simp, ?_, by omega⟩
  rw [e, List.getElem?_append_right (by omega)]
  have : P.length + 1 + k - P.length = k + 1 := by omega
  rw [this, List.getElem?_cons_succ]; exact hk

/-! ## Clones -/

/-- Route `r'` of `h'` is a clone of route `r` of `h` sharing the first stops `pre` and having own copies
`fresh` of the others; nothing else changed. -/
structure CloneOf (h h' : Heap) (r r' : Nat) (pre suf fresh : List Nat) : Prop where
  new : r' = h.core.nRoute
  nRoute : h'.core.nRoute = h.core.nRoute + 1
  nStop : h.core.nStop ≤ h'.core.nStop
  nPt : h.core.nPt ≤ h'.core.nPt
  stop : ∀ x, x < h.core.nStop → h'.core.stop x = h.core.stop x
  caches : ∀ x, x < h.core.nStop → h'.arr x = h.arr x ∧ h'.dep x = h.dep x ∧ h'.cap x = h.cap x ∧ h'.sfeas x = h.sfeas x
  pt : ∀ p, p < h.core.nPt → h'.core.pt p = h.core.pt p ∧ h'.pfeas p = h.pfeas p
  route : ∀ x, x ≠ r' → h'.core.route x = h.core.route x ∧ h'.rfeas x = h.rfeas x
  rfeas : h'.rfeas r' = none
  old : (h.core.route r).stops = pre ++ suf
  stops : (h'.core.route r').stops = pre ++ fresh
  vehicle : (h'.core.route r').vehicle = (h.core.route r).vehicle
  freshStop : ∀ x ∈ fresh, h.core.nStop ≤ x ∧ Blank h' x ∧ h'.sfeas x = none
  freshPt : ∀ x ∈ fresh, ∀ p ∈ (h'.core.stop x).pickups ++ (h'.core.stop x).deliveries,
    h.core.nPt ≤ p ∧ h'.pfeas p = none
  len : fresh.length = suf.length
  visits : fresh.map (visitOf h'.core) = suf.map (visitOf h.core)
  wf : WellFormed h'.core r'
  whole : ∀ p, p ∈ dropsOf h.core suf ↔ p ∈ picksOf h.core suf
  coverStop : ∀ x, h.core.nStop ≤ x → x < h'.core.nStop → x ∈ fresh
  coverPt : ∀ p, h.core.nPt ≤ p → p < h'.core.nPt → ∃ x ∈ fresh, p ∈ (h'.core.stop x).deliveries

theorem CloneOf.visit_pre {h h' : Heap} {r r' : Nat} {pre suf fresh : List Nat} (c : CloneOf h h' r r' pre suf fresh)
    (hw : WellFormed h.core r) {x : Nat} (hx : x ∈ (h.core.route r).stops) : visitOf h'.core x = visitOf h.core x := by
  unfold visitOf
  rw [c.stop x (hw.alloc x hx)]
  congr 1
  · apply List.map_congr_left
    intro p hp
    rw [(c.pt p (hw.pick' hx hp).1).1]
  · apply List.map_congr_left
    intro p hp
    rw [(c.pt p (hw.drop' hx hp).1).1]

theorem CloneOf.itinerary {h h' : Heap} {r r' : Nat} {pre suf fresh : List Nat} (c : CloneOf h h' r r' pre suf fresh)
    (hw : WellFormed h.core r) : itinerary h'.core r' = itinerary h.core r := by
  unfold Jinete.itinerary
  rw [c.stops, c.old, List.map_append, List.map_append, c.visits]
  congr 1
  apply List.map_congr_left
  intro x hx
  exact c.visit_pre hw (by rw [c.old]; exact List.mem_append_left _ hx)

theorem CloneOf.sameStop {h h' : Heap} {r r' : Nat} {pre suf fresh : List Nat} (c : CloneOf h h' r r' pre suf fresh)
    (hw : WellFormed h.core r) {x : Nat} (hx : x ∈ (h.core.route r).stops) : SameStop h h' x := by
  obtain ⟨a1, a2, a3, _⟩ := c.caches x (hw.alloc x hx)
  exact ⟨⟨c.visit_pre hw hx, by rw [c.stop x (hw.alloc x hx)]⟩, by rw [c.stop x (hw.alloc x hx)], a1, a2, a3⟩

/-- The memoised numbers of a clone agree with its schedule when those of the original do. -/
theorem CloneOf.agree {h h' : Heap} {r r' : Nat} {pre suf fresh : List Nat} (c : CloneOf h h' r r' pre suf fresh)
    (hw : WellFormed h.core r) (ha : CachesAgree E h r) : CachesAgree E h' r' := by
  rw [cachesAgree_iff c.wf.toChained]
  have hco := (cachesAgree_iff hw.toChained).1 ha
  rw [c.old] at hco
  have hl := hw.linked
  rw [c.old] at hl
  rw [c.stops]
  intro s hs
  rcases List.mem_append.1 hs with hs | hs
  · exact coh_prefix hl.prefix (fun x hx => hco x (List.mem_append_left _ hx))
      (fun x hx => c.sameStop hw (by rw [c.old]; exact List.mem_append_left _ hx)) s hs
  · exact (c.freshStop s hs).2.1.coh

/-- `RouteCloner.clone` on a well formed route. -/
theorem cloneRouteIdx_run {h : Heap} {r : Nat} (hw : WellFormed h.core r) (desired : Nat) :
    ∃ r' idx h' pre suf fresh, cloneRouteIdx E r desired h = (.ok (r', idx), h') ∧ CloneOf h h' r r' pre suf fresh ∧
      pre.length = idx ∧ (idx = 0 ∨ 2 ≤ idx) ∧ (idx = 0 ∨ idx < desired) := by
  obtain ⟨idx, m, h1, pre, suf, e1, eold, elen, ext, mok, keys, whole, hi1, hi2⟩ := clonerInit_run (E := E) hw desired
  have kp : ∀ p ∈ picksOf h.core suf, p ∈ m.map Prod.fst := fun p hp => (keys p).2 ((whole p).2 hp)
  have kd : ∀ p ∈ dropsOf h.core suf, p ∈ m.map Prod.fst := fun p hp => (keys p).2 hp
  have ecore : ∀ l, picksOf h1.core l = picksOf h.core l ∧ dropsOf h1.core l = dropsOf h.core l := by
    intro l; unfold picksOf dropsOf; rw [ext.stop]; exact ⟨rfl, rfl⟩
  have hsuf : ∀ s ∈ suf, s ∈ (h.core.route r).stops := fun s hs => by rw [eold]; exact List.mem_append_right _ hs
  obtain ⟨h2, e2, c⟩ := cloneStops_run (m := m) (φ := m.fn) suf h1 pre.getLast?
    (fun s hs => by rw [ext.nStop]; exact hw.alloc s (hsuf s hs))
    (by rw [(ecore suf).1]; exact fun p hp => Mapper.fn_lookup (kp p hp))
    (by rw [(ecore suf).2]; exact fun p hp => Mapper.fn_lookup (kd p hp))
    (by
      rw [(ecore suf).1]
      exact List.Nodup.map_on (fun x hx y hy e => Mapper.fn_inj mok.vals (kp x hx) (kp y hy) e) (hw.picks_nodup' eold))
    (by
      rw [(ecore suf).2]
      exact List.Nodup.map_on (fun x hx y hy e => Mapper.fn_inj mok.vals (kd x hx) (kd y hy) e) (hw.drops_nodup eold))
  have hlt : (h1.core.route r).stops.take idx = pre := by rw [ext.route, eold, ← elen]; simp
  have hdr : (h1.core.route r).stops.drop idx = suf := by rw [ext.route, eold, ← elen]; simp
  have hfr : ∀ x, x ∈ List.range' h1.core.nStop suf.length ↔ ∃ i, i < suf.length ∧ x = h1.core.nStop + i := by
    intro x; rw [List.mem_range']; simp
  have hrun : cloneRouteIdx E r desired h = (.ok (h.core.nRoute, idx),
      h2.allocRoute ⟨(h.core.route r).vehicle, pre ++ List.range' h1.core.nStop suf.length⟩) := by
    unfold cloneRouteIdx
    rw [Py.bind_ok e1]
    have hrs : routeStops r h1 = (.ok (h1.core.route r).stops, h1) := by simp [routeStops]
    simp only
    rw [Py.bind_ok hrs]
    simp only [Py.read_bind]
    rw [hlt, hdr, Py.bind_ok e2]
    simp only [newRouteWith, ext.route]
    have : h2.core.nRoute = h.core.nRoute := by rw [c.nRoute, ext.nRoute]
    rw [← this]
    rfl
  refine ⟨h.core.nRoute, idx, _, pre, suf, List.range' h1.core.nStop suf.length, hrun, ?_, elen, hi1, hi2⟩
  -- the clone
  have n1 := ext.nStop
  have hroute : ((h2.allocRoute ⟨(h.core.route r).vehicle, pre ++ List.range' h1.core.nStop suf.length⟩).core.route
      h.core.nRoute) = ⟨(h.core.route r).vehicle, pre ++ List.range' h1.core.nStop suf.length⟩ := by
    have : h2.core.nRoute = h.core.nRoute := by rw [c.nRoute, ext.nRoute]
    simp [Heap.allocRoute, this]
  generalize hg : h2.allocRoute ⟨(h.core.route r).vehicle, pre ++ List.range' h1.core.nStop suf.length⟩ = g at *
  have gstop : g.core.stop = h2.core.stop := by rw [← hg]; rfl
  have gpt : g.core.pt = h2.core.pt := by rw [← hg]; rfl
  have gnS : g.core.nStop = h2.core.nStop := by rw [← hg]; rfl
  have gnP : g.core.nPt = h2.core.nPt := by rw [← hg]; rfl
  have hnP : h2.core.nPt = h1.core.nPt := c.nPt
  have hnR : h2.core.nRoute = h.core.nRoute := by rw [c.nRoute, ext.nRoute]
  have stop_old : ∀ x, x < h.core.nStop → g.core.stop x = h.core.stop x := by
    intro x hx; rw [gstop, c.stop x (by omega), ext.stop]
  have mem_fresh : ∀ x ∈ m.map Prod.fst, h.core.nPt ≤ m.fn x ∧ m.fn x < h1.core.nPt ∧ h1.pfeas (m.fn x) = none ∧
      h1.core.pt (m.fn x) = ⟨(h.core.pt x).vehicle, (h.core.pt x).trip, none, none⟩ :=
    fun x hx => mok.fresh _ (Mapper.fn_mem hx)
  have pt_old : ∀ p, p < h.core.nPt → g.core.pt p = h.core.pt p := by
    intro p hp
    have hb := c.ptBase p
    have h1p : (h2.core.pt p).pickup = (h1.core.pt p).pickup := by
      apply c.ptPickup
      rw [(ecore suf).1]
      intro hm
      obtain ⟨x, hx, e⟩ := List.mem_map.1 hm
      have := (mem_fresh x (kp x hx)).1
      omega
    have h1d : (h2.core.pt p).delivery = (h1.core.pt p).delivery := by
      apply c.ptDelivery
      rw [(ecore suf).2]
      intro hm
      obtain ⟨x, hx, e⟩ := List.mem_map.1 hm
      have := (mem_fresh x (kd x hx)).1
      omega
    rw [gpt]
    have : h2.core.pt p = h1.core.pt p := by
      cases hh : h2.core.pt p
      cases hh1 : h1.core.pt p
      simp only [hh, hh1] at hb h1p h1d
      simp [hb.1, hb.2, h1p, h1d]
    rw [this, ext.pt p hp]
  have trip_fresh : ∀ x ∈ m.map Prod.fst, (g.core.pt (m.fn x)).trip = (h.core.pt x).trip := by
    intro x hx
    rw [gpt, (c.ptBase _).2, (mem_fresh x hx).2.2.2]
  have copy : ∀ i s, suf[i]? = some s → g.core.stop (h1.core.nStop + i) =
      copyStop h.core m.fn (if i = 0 then pre.getLast? else some (h1.core.nStop + i - 1)) s := by
    intro i s hs
    rw [gstop, c.copy i s hs]
    unfold copyStop
    rw [ext.stop]
  have kps : ∀ s ∈ suf, ∀ p ∈ (h.core.stop s).pickups, p ∈ m.map Prod.fst :=
    fun s hs p hp => kp p (List.mem_flatMap.2 ⟨s, hs, hp⟩)
  have kds : ∀ s ∈ suf, ∀ p ∈ (h.core.stop s).deliveries, p ∈ m.map Prod.fst :=
    fun s hs p hp => kd p (List.mem_flatMap.2 ⟨s, hs, hp⟩)
  have visit_new : ∀ i s, suf[i]? = some s → visitOf g.core (h1.core.nStop + i) = visitOf h.core s := by
    intro i s hs
    have hsm := List.mem_of_getElem? hs
    unfold visitOf
    rw [copy i s hs]
    simp only [copyStop, List.map_map, Visit.mk.injEq, true_and]
    constructor
    · apply List.map_congr_left
      intro p hp
      exact trip_fresh p (kps s hsm p hp)
    · apply List.map_congr_left
      intro p hp
      exact trip_fresh p (kds s hsm p hp)
  have visits : (List.range' h1.core.nStop suf.length).map (visitOf g.core) = suf.map (visitOf h.core) := by
    apply List.ext_getElem?
    intro i
    rw [List.getElem?_map, List.getElem?_map]
    by_cases hi : i < suf.length
    · rw [List.getElem?_range' hi, List.getElem?_eq_getElem hi]
      simp only [Option.map_some, Nat.one_mul]
      rw [visit_new i suf[i] (List.getElem?_eq_getElem hi)]
    · rw [List.getElem?_eq_none (by simpa using hi), List.getElem?_eq_none (by simpa using hi)]
      rfl
  have visit_pre : ∀ x ∈ pre, visitOf g.core x = visitOf h.core x := by
    intro x hx
    have hxm : x ∈ (h.core.route r).stops := by rw [eold]; exact List.mem_append_left _ hx
    unfold visitOf
    rw [stop_old x (hw.alloc x hxm)]
    congr 1
    · apply List.map_congr_left
      intro p hp
      rw [pt_old p (hw.pick' hxm hp).1]
    · apply List.map_congr_left
      intro p hp
      rw [pt_old p (hw.drop' hxm hp).1]
  have itin : itinerary g.core h.core.nRoute = itinerary h.core r := by
    unfold itinerary
    rw [hroute, eold, List.map_append, List.map_append, visits]
    congr 1
    exact List.map_congr_left visit_pre
  -- chained
  have preAlloc : ∀ x ∈ pre, x < h.core.nStop := fun x hx => hw.alloc x (by rw [eold]; exact List.mem_append_left _ hx)
  have hnd := hw.nodup
  rw [eold] at hnd
  have hchain : Chained g.core h.core.nRoute := by
    constructor
    · rw [hroute]
      simp only
      rw [List.nodup_append]
      refine ⟨hnd.of_append_left, List.nodup_range', ?_⟩
      intro a ha b hb e
      obtain ⟨i, _, rfl⟩ := (hfr b).1 hb
      have := preAlloc a ha
      omega
    · rw [hroute]
      intro s hs
      rw [gnS, c.nStop]
      rcases List.mem_append.1 hs with hs | hs
      · have := preAlloc s hs; omega
      · obtain ⟨i, hi, rfl⟩ := (hfr s).1 hs; omega
    · rw [hroute]
      simp only
      rw [linked_append]
      have hl := hw.linked
      rw [eold] at hl
      refine ⟨hl.prefix.congr fun s hs => by rw [stop_old s (preAlloc s hs)], ?_⟩
      have key : ∀ (k : Nat) (p : Option Nat), k ≤ suf.length → (k < suf.length →
          (g.core.stop (h1.core.nStop + k)).previous = p) →
          LinkedFrom g.core p (List.range' (h1.core.nStop + k) (suf.length - k)) := by
        intro k
        induction hn : suf.length - k generalizing k with
        | zero => intro p _ _; trivial
        | succ n ih =>
          intro p hk hp
          have hk' : k < suf.length := by omega
          rw [List.range'_succ]
          refine ⟨hp hk', ?_⟩
          have := ih (k + 1) (by omega) (some (h1.core.nStop + k)) (by omega) (by
            intro hk2
            rw [copy (k + 1) _ (List.getElem?_eq_getElem hk2)]
            simp [copyStop])
          exact this
      have := key 0 pre.getLast? (by omega) (by
        intro h0
        rw [copy 0 _ (List.getElem?_eq_getElem h0)]
        simp [copyStop])
      simpa using this
    · rw [hroute]
      intro s hs
      rcases List.mem_append.1 hs with hs | hs
      · rw [stop_old s (preAlloc s hs)]
        exact hw.vehicle s (by rw [eold]; exact List.mem_append_left _ hs)
      · obtain ⟨i, hi, rfl⟩ := (hfr s).1 hs
        rw [copy i _ (List.getElem?_eq_getElem hi)]
        exact hw.vehicle _ (hsuf _ (List.getElem_mem hi))
  have pick_new : ∀ i s p, suf[i]? = some s → p ∈ (h.core.stop s).pickups →
      (g.core.pt (m.fn p)).pickup = some (h1.core.nStop + i) := by
    intro i s p hs hp
    rw [gpt]
    exact c.pickup i s p hs (by rw [ext.stop]; exact hp)
  have drop_new : ∀ i s p, suf[i]? = some s → p ∈ (h.core.stop s).deliveries →
      (g.core.pt (m.fn p)).delivery = some (h1.core.nStop + i) := by
    intro i s p hs hp
    rw [gpt]
    exact c.delivery i s p hs (by rw [ext.stop]; exact hp)
  have fresh_at : ∀ i, i < suf.length → (List.range' h1.core.nStop suf.length)[i]? = some (h1.core.nStop + i) := by
    intro i hi; rw [List.getElem?_range' hi]; simp
  have sub_pre : pre.Sublist (pre ++ List.range' h1.core.nStop suf.length) := List.sublist_append_left _ _
  have sub_fresh : (List.range' h1.core.nStop suf.length).Sublist (pre ++ List.range' h1.core.nStop suf.length) :=
    List.sublist_append_right _ _
  -- order facts for planned trips of the shared part
  have pre_pick : ∀ s ∈ pre, ∀ p ∈ (h.core.stop s).pickups, p < h.core.nPt ∧ (h.core.pt p).pickup = some s ∧
      ∃ d, [s, d].Sublist pre ∧ (h.core.pt p).delivery = some d ∧ p ∈ (h.core.stop d).deliveries := by
    intro s hs p hp
    obtain ⟨a, b, e⟩ := List.append_of_mem hs
    obtain ⟨q1, q2, d, hd, q3, q4⟩ := hw.pick a s (b ++ suf) (by rw [eold, e]; simp) p hp
    refine ⟨q1, q2, d, ?_, q3, q4⟩
    rcases List.mem_append.1 hd with hd | hd
    · exact before_of_split e hd
    · exfalso
      have := (whole p).1 (List.mem_flatMap.2 ⟨d, hd, q4⟩)
      obtain ⟨x, hx, hpx⟩ := List.mem_flatMap.1 this
      have h3 := (hw.pick' (hsuf x hx) hpx).2.1
      rw [q2] at h3
      cases h3
      exact (List.disjoint_of_nodup_append hnd) hs hx
  have pre_drop : ∀ s ∈ pre, ∀ p ∈ (h.core.stop s).deliveries, p < h.core.nPt ∧ (h.core.pt p).delivery = some s ∧
      ∃ u, [u, s].Sublist pre ∧ (h.core.pt p).pickup = some u ∧ p ∈ (h.core.stop u).pickups := by
    intro s hs p hp
    obtain ⟨a, b, e⟩ := List.append_of_mem hs
    obtain ⟨q1, q2, u, hu, q3, q4⟩ := hw.drop a s (b ++ suf) (by rw [eold, e]; simp) p hp
    obtain ⟨x, y, rfl⟩ := List.append_of_mem hu
    exact ⟨q1, q2, u, before_of_split (P := x) (S := y ++ s :: b) (by rw [e]; simp) (by simp), q3, q4⟩
  have hwf : WellFormed g.core h.core.nRoute := by
    refine WellFormed.of_order hchain ?_ ?_ ?_ ?_ ?_ ?_ ?_
    · rw [← hg]; simp [Heap.allocRoute, hnR]
    · rw [hroute]
      have := hw.length
      rw [eold] at this
      simpa using this
    · rw [hroute]
      intro s hs
      cases hpre : pre with
      | cons x pre' =>
        simp only [hpre, List.cons_append, List.head?_cons, Option.mem_def, Option.some.injEq] at hs
        subst hs
        rw [stop_old x (preAlloc x (by rw [hpre]; simp))]
        exact hw.depot x (by rw [eold, hpre]; simp)
      | nil =>
        rw [hpre, List.nil_append] at eold
        have hlen : 0 < suf.length := by
          have := hw.length
          rw [eold] at this; omega
        simp only [hpre, List.nil_append] at hs
        have : s = h1.core.nStop := by
          obtain ⟨n, hn⟩ : ∃ n, suf.length = n + 1 := ⟨suf.length - 1, by omega⟩
          rw [hn, List.range'_succ] at hs
          simpa using hs.symm
        subst this
        have hc0 := copy 0 suf[0] (List.getElem?_eq_getElem hlen)
        rw [Nat.add_zero] at hc0
        have hd := hw.depot suf[0] (by rw [eold]; simp [List.head?_eq_getElem?])
        rw [hc0]
        simp [copyStop, hd.1, hd.2]
    · rw [hroute]
      intro s hs p hp
      rcases List.mem_append.1 hs with hs | hs
      · rw [stop_old s (preAlloc s hs)] at hp
        obtain ⟨q1, q2, d, q3, q4, q5⟩ := pre_pick s hs p hp
        rw [pt_old p q1]
        refine ⟨?_, q2, d, q3.trans sub_pre, q4, ?_⟩
        · rw [gnP, hnP]; have := ext.nPt; omega
        · rw [stop_old d (preAlloc d (q3.subset (by simp)))]; exact q5
      · obtain ⟨i, hi, rfl⟩ := (hfr s).1 hs
        have hsi := List.getElem?_eq_getElem hi
        rw [copy i _ hsi] at hp
        simp only [copyStop, List.mem_map] at hp
        obtain ⟨q, hq, rfl⟩ := hp
        have hsm := List.getElem_mem hi
        have hk := mem_fresh q (kps _ hsm q hq)
        refine ⟨by rw [gnP, hnP]; exact hk.2.1, pick_new i _ q hsi hq, ?_⟩
        obtain ⟨a, b, e, hal⟩ := split_at hsi
        obtain ⟨_, _, d, hd, _, q4⟩ := hw.pick (pre ++ a) suf[i] b (by rw [eold, List.append_assoc, ← e]) q hq
        obtain ⟨k, hk'⟩ := List.getElem?_of_mem hd
        have hdj : suf[i + 1 + k]? = some d := by
          rw [e, List.getElem?_append_right (by omega)]
          have : i + 1 + k - a.length = k + 1 := by omega
          rw [this, List.getElem?_cons_succ]; exact hk'
        have hjl : i + 1 + k < suf.length := (List.getElem?_eq_some_iff.1 hdj).1
        refine ⟨h1.core.nStop + (i + 1 + k), ?_, drop_new _ d q hdj q4, ?_⟩
        · exact (before_of_index (fresh_at i hi) (fresh_at _ hjl) (by omega)).trans sub_fresh
        · rw [copy _ d hdj]
          exact List.mem_map_of_mem q4
    · rw [hroute]
      intro s hs p hp
      rcases List.mem_append.1 hs with hs | hs
      · rw [stop_old s (preAlloc s hs)] at hp
        obtain ⟨q1, q2, u, q3, q4, q5⟩ := pre_drop s hs p hp
        rw [pt_old p q1]
        refine ⟨?_, q2, u, q3.trans sub_pre, q4, ?_⟩
        · rw [gnP, hnP]; have := ext.nPt; omega
        · rw [stop_old u (preAlloc u (q3.subset (by simp)))]; exact q5
      · obtain ⟨i, hi, rfl⟩ := (hfr s).1 hs
        have hsi := List.getElem?_eq_getElem hi
        rw [copy i _ hsi] at hp
        simp only [copyStop, List.mem_map] at hp
        obtain ⟨q, hq, rfl⟩ := hp
        have hsm := List.getElem_mem hi
        have hk := mem_fresh q (kds _ hsm q hq)
        refine ⟨by rw [gnP, hnP]; exact hk.2.1, drop_new i _ q hsi hq, ?_⟩
        have hqp : q ∈ picksOf h.core suf := (whole q).1 (List.mem_flatMap.2 ⟨_, hsm, hq⟩)
        obtain ⟨u, hu, hqu⟩ := List.mem_flatMap.1 hqp
        obtain ⟨j, hj⟩ := List.getElem?_of_mem hu
        have hjl : j < suf.length := (List.getElem?_eq_some_iff.1 hj).1
        have hji : j < i := by
          by_contra hcon
          obtain ⟨a, b, e, hal⟩ := split_at hj
          obtain ⟨_, _, d, hd, q3, _⟩ := hw.pick (pre ++ a) u b (by rw [eold, List.append_assoc, ← e]) q hqu
          have hdd := (hw.drop' (hsuf _ hsm) hq).2.1
          rw [q3] at hdd
          have hdi : d = suf[i] := by simpa using hdd
          have hnb : (u :: b).Nodup := by
            have := hnd.of_append_right
            rw [e] at this
            exact this.of_append_right
          have hna : (a ++ u :: b).Nodup := by rw [← e]; exact hnd.of_append_right
          -- d occurs in b and at index i ≤ j
          obtain ⟨k, hk'⟩ := List.getElem?_of_mem hd
          have hdj : suf[j + 1 + k]? = some d := by
            rw [e, List.getElem?_append_right (by omega)]
            have : j + 1 + k - a.length = k + 1 := by omega
            rw [this, List.getElem?_cons_succ]; exact hk'
          have : i = j + 1 + k := by
            have h5 : suf[i]? = suf[j + 1 + k]? := by rw [hdj, hsi, hdi]
            exact (List.getElem?_inj hi hnd.of_append_right).1 h5
          omega
        refine ⟨h1.core.nStop + j, ?_, pick_new j u q hj hqu, ?_⟩
        · exact (before_of_index (fresh_at j hjl) (fresh_at i hi) hji).trans sub_fresh
        · rw [copy j u hj]
          exact List.mem_map_of_mem hqu
    · rw [hroute]
      intro s hs
      rcases List.mem_append.1 hs with hs | hs
      · rw [stop_old s (preAlloc s hs)]
        exact hw.sets s (by rw [eold]; exact List.mem_append_left _ hs)
      · obtain ⟨i, hi, rfl⟩ := (hfr s).1 hs
        have hsm := List.getElem_mem hi
        rw [copy i _ (List.getElem?_eq_getElem hi)]
        have := hw.sets _ (hsuf _ hsm)
        exact ⟨List.Nodup.map_on (fun x hx y hy e => Mapper.fn_inj mok.vals (kps _ hsm x hx) (kps _ hsm y hy) e) this.1,
          List.Nodup.map_on (fun x hx y hy e => Mapper.fn_inj mok.vals (kds _ hsm x hx) (kds _ hsm y hy) e) this.2⟩
    · rw [itin]; exact hw.trips
  constructor
  · rfl
  · rw [← hg]; simp [Heap.allocRoute, hnR]
  · rw [gnS, c.nStop]; omega
  · rw [gnP, hnP]; exact ext.nPt
  · exact stop_old
  · intro x hx
    obtain ⟨a1, a2, a3, a4⟩ := c.caches x (by omega)
    rw [← hg]
    exact ⟨a1.trans (by rw [ext.arr]), a2.trans (by rw [ext.dep]), a3.trans (by rw [ext.cap]), a4.trans (by rw [ext.sfeas])⟩
  · intro p hp
    refine ⟨pt_old p hp, ?_⟩
    rw [← hg]
    exact (congrFun c.pfeas p).trans (ext.pfeas p hp)
  · intro x hx
    rw [← hg]
    simp only [Heap.allocRoute, hnR, Function.update_of_ne hx, c.route, c.rfeas, ext.route, ext.rfeas, and_self]
  · rw [← hg]; simp [Heap.allocRoute, hnR]
  · exact eold
  · rw [hroute]
  · rw [hroute]
  · intro x hx
    obtain ⟨i, hi, rfl⟩ := (hfr x).1 hx
    obtain ⟨b1, b2⟩ := c.blank i hi
    refine ⟨by omega, ⟨?_, ?_, ?_⟩, ?_⟩
    · rw [← hg]; exact b1.arr
    · rw [← hg]; exact b1.dep
    · rw [← hg]; exact b1.cap
    · rw [← hg]; exact b2
  · intro x hx p hp
    obtain ⟨i, hi, rfl⟩ := (hfr x).1 hx
    have hsm := List.getElem_mem hi
    rw [copy i _ (List.getElem?_eq_getElem hi)] at hp
    simp only [copyStop, List.mem_append, List.mem_map] at hp
    have : ∃ q ∈ m.map Prod.fst, m.fn q = p := by
      rcases hp with ⟨q, hq, e⟩ | ⟨q, hq, e⟩
      · exact ⟨q, kps _ hsm q hq, e⟩
      · exact ⟨q, kds _ hsm q hq, e⟩
    obtain ⟨q, hq, rfl⟩ := this
    refine ⟨(mem_fresh q hq).1, ?_⟩
    rw [← hg]
    exact (congrFun c.pfeas _).trans (mem_fresh q hq).2.2.1
  · simp
  · exact visits
  · exact hwf
  · exact whole
  · intro x h3 h4
    rw [gnS, c.nStop] at h4
    exact (hfr x).2 ⟨x - h1.core.nStop, by omega, by omega⟩
  · intro p h3 h4
    rw [gnP, hnP] at h4
    obtain ⟨x, hx, rfl⟩ := mok.cover p h3 h4
    have hk : x.1 ∈ m.map Prod.fst := List.mem_map_of_mem hx
    have hfn : m.fn x.1 = x.2 := by
      have := List.inj_on_of_nodup_map mok.keys (Mapper.fn_mem hk) hx rfl
      exact congrArg Prod.snd this
    obtain ⟨s, hs, hps⟩ := List.mem_flatMap.1 ((keys x.1).1 hk)
    obtain ⟨i, hi⟩ := List.getElem?_of_mem hs
    refine ⟨h1.core.nStop + i, (hfr _).2 ⟨i, (List.getElem?_eq_some_iff.1 hi).1, rfl⟩, ?_⟩
    rw [copy i s hi, ← hfn]
    exact List.mem_map_of_mem hps

end Jinete
