import Verif.Model.MilpRoutes
import Verif.Proofs.RouteEdit

/-!
# Building a route from positions, trips and times: what each step leaves behind
-/

set_option autoImplicit false

namespace Jinete

variable {E : Env}

/-- Objects with small numbers keep everything. -/
structure Above (n q m : Nat) (h h' : Heap) : Prop where
  nStop : h.core.nStop ≤ h'.core.nStop
  nPt : h.core.nPt ≤ h'.core.nPt
  nRoute : h.core.nRoute ≤ h'.core.nRoute
  stop : ∀ x, x < n → h'.core.stop x = h.core.stop x
  caches : ∀ x, x < n → h'.arr x = h.arr x ∧ h'.dep x = h.dep x ∧ h'.cap x = h.cap x ∧ h'.sfeas x = h.sfeas x
  pt : ∀ p, p < q → h'.core.pt p = h.core.pt p ∧ h'.pfeas p = h.pfeas p
  route : ∀ x, x < m → h'.core.route x = h.core.route x ∧ h'.rfeas x = h.rfeas x

theorem Above.refl (n q m : Nat) (h : Heap) : Above n q m h h :=
  ⟨le_rfl, le_rfl, le_rfl, fun _ _ => rfl, fun _ _ => ⟨rfl, rfl, rfl, rfl⟩, fun _ _ => ⟨rfl, rfl⟩, fun _ _ => ⟨rfl, rfl⟩⟩

theorem Above.trans {n q m : Nat} {h1 h2 h3 : Heap} (a : Above n q m h1 h2) (b : Above n q m h2 h3) : Above n q m h1 h3 where
  nStop := a.nStop.trans b.nStop
  nPt := a.nPt.trans b.nPt
  nRoute := a.nRoute.trans b.nRoute
  stop x hx := (b.stop x hx).trans (a.stop x hx)
  caches x hx := by
    obtain ⟨a1, a2, a3, a4⟩ := a.caches x hx
    obtain ⟨b1, b2, b3, b4⟩ := b.caches x hx
    exact ⟨b1.trans a1, b2.trans a2, b3.trans a3, b4.trans a4⟩
  pt p hp := ⟨(b.pt p hp).1.trans (a.pt p hp).1, (b.pt p hp).2.trans (a.pt p hp).2⟩
  route x hx := ⟨(b.route x hx).1.trans (a.route x hx).1, (b.route x hx).2.trans (a.route x hx).2⟩

/-! ## `_positions_to_stops` -/

/-- Fresh stops `F` at the positions `ps`, linked from `z`. -/
structure FreshStops (h h' : Heap) (veh z : Nat) (ps : List Pos) (F : List Nat) : Prop where
  above : ∀ n q m, n ≤ h.core.nStop → Above n q m h h'
  pts : h'.core.nPt = h.core.nPt
  routes : h'.core.nRoute = h.core.nRoute
  fresh : ∀ s ∈ F, h.core.nStop ≤ s ∧ s < h'.core.nStop
  nodup : F.Nodup
  pos : F.map (fun s => (h'.core.stop s).position) = ps
  linked : LinkedFrom h'.core (some z) F
  plain : ∀ s ∈ F, (h'.core.stop s).vehicle = veh ∧ (h'.core.stop s).pickups = [] ∧ (h'.core.stop s).deliveries = []
  verdict : ∀ s ∈ F, h'.sfeas s = none

theorem allocStop_above (h : Heap) (x : StopCore) (n q m : Nat) (hn : n ≤ h.core.nStop) : Above n q m h (h.allocStop x) where
  nStop := Nat.le_succ _
  nPt := le_rfl
  nRoute := le_rfl
  stop y hy := by simp only [Heap.allocStop]; rw [Function.update_of_ne (by omega)]
  caches y hy := by
    simp only [Heap.allocStop]
    rw [Function.update_of_ne (by omega), Function.update_of_ne (by omega), Function.update_of_ne (by omega),
      Function.update_of_ne (by omega)]
    exact ⟨rfl, rfl, rfl, rfl⟩
  pt _ _ := ⟨rfl, rfl⟩
  route _ _ := ⟨rfl, rfl⟩

theorem positionsToStops_skip {h : Heap} {veh z : Nat} {L : List Nat} {p : Pos} {ps : List Pos}
    (hz : L.getLast? = some z) (hp : p = (h.core.stop z).position) :
    positionsToStops veh L (p :: ps) h = positionsToStops veh L ps h := by
  rw [positionsToStops, hz]
  have : (Py.unwrap .indexError (some z) : M Nat) h = (.ok z, h) := rfl
  rw [Py.bind_ok this, Py.read_bind, if_pos hp]

theorem positionsToStops_run {veh : Nat} : ∀ (ps : List Pos) (h : Heap) (L : List Nat) (z : Nat),
    L.getLast? = some z → z < h.core.nStop → ((h.core.stop z).position :: ps).IsChain (· ≠ ·) →
    ∃ h' F, positionsToStops veh L ps h = (.ok (L ++ F), h') ∧ FreshStops h h' veh z ps F := by
  intro ps
  induction ps with
  | nil =>
    intro h L z _ _ _
    exact ⟨h, [], by simp [positionsToStops], fun _ _ _ _ => Above.refl _ _ _ _, rfl, rfl, by simp, by simp, rfl, trivial,
      by simp, by simp⟩
  | cons p ps ih =>
    intro h L z hz hzn hch
    rw [List.isChain_cons_cons] at hch
    let h1 := h.allocStop ⟨veh, p, some z, [], [], none⟩
    have hs1 : h1.core.stop h.core.nStop = ⟨veh, p, some z, [], [], none⟩ := by simp [h1, Heap.allocStop]
    obtain ⟨h', F, hrun, hF⟩ := ih h1 (L ++ [h.core.nStop]) h.core.nStop (by simp) (by simp [h1, Heap.allocStop])
      (by rw [hs1]; exact hch.2)
    have h1n : h1.core.nStop = h.core.nStop + 1 := rfl
    have hstop : h'.core.stop h.core.nStop = ⟨veh, p, some z, [], [], none⟩ := by
      rw [← hs1]; exact (hF.above (h.core.nStop + 1) 0 0 (by omega)).stop _ (by omega)
    refine ⟨h', h.core.nStop :: F, ?_, ?_, ?_, ?_, ?_, ?_, ?_, ?_, ?_, ?_⟩
    · rw [positionsToStops, hz]
      have e1 : (Py.unwrap .indexError (some z) : M Nat) h = (.ok z, h) := rfl
      rw [Py.bind_ok e1, Py.read_bind, if_neg (fun e => hch.1 e.symm)]
      have e2 : newStop veh p (some z) none h = (.ok h.core.nStop, h1) := rfl
      rw [Py.bind_ok e2, hrun]
      simp
    · intro n q m hn
      exact (allocStop_above h _ n q m hn).trans (hF.above n q m (by omega))
    · rw [hF.pts]; rfl
    · rw [hF.routes]; rfl
    · intro s hs
      rcases List.mem_cons.1 hs with rfl | hs
      · refine ⟨le_rfl, ?_⟩
        have := (hF.above 0 0 0 (Nat.zero_le _)).nStop
        omega
      · have := hF.fresh s hs
        omega
    · refine List.nodup_cons.2 ⟨fun hm => ?_, hF.nodup⟩
      have := hF.fresh _ hm
      omega
    · rw [List.map_cons, hF.pos, hstop]
    · exact ⟨by rw [hstop], hF.linked⟩
    · intro s hs
      rcases List.mem_cons.1 hs with rfl | hs
      · rw [hstop]; exact ⟨rfl, rfl, rfl⟩
      · exact hF.plain s hs
    · intro s hs
      rcases List.mem_cons.1 hs with rfl | hs
      · rw [((hF.above (h.core.nStop + 1) 0 0 (by omega)).caches _ (by omega)).2.2.2]
        simp [h1, Heap.allocStop]
      · exact hF.verdict s hs

/-! ## `_build_planned_trips` -/

/-- The planned trips for `T`, numbered from `q`, whose origin is at `p`. -/
def pickedAt (E : Env) (T : List Nat) (q : Nat) (p : Pos) : List Nat :=
  ((T.zipIdx q).filter fun tq => decide ((E.trip tq.1).origin.position = p)).map Prod.snd

/-- The planned trips for `T`, numbered from `q`, whose destination is at `p`. -/
def droppedAt (E : Env) (T : List Nat) (q : Nat) (p : Pos) : List Nat :=
  ((T.zipIdx q).filter fun tq => decide ((E.trip tq.1).destination.position = p)).map Prod.snd

theorem pickedAt_cons (t : Nat) (T : List Nat) (q : Nat) (p : Pos) : pickedAt E (t :: T) q p =
    (if (E.trip t).origin.position = p then [q] else []) ++ pickedAt E T (q + 1) p := by
  unfold pickedAt
  rw [List.zipIdx_cons]
  by_cases h : (E.trip t).origin.position = p <;> simp [h]

theorem droppedAt_cons (t : Nat) (T : List Nat) (q : Nat) (p : Pos) : droppedAt E (t :: T) q p =
    (if (E.trip t).destination.position = p then [q] else []) ++ droppedAt E T (q + 1) p := by
  unfold droppedAt
  rw [List.zipIdx_cons]
  by_cases h : (E.trip t).destination.position = p <;> simp [h]

/-- Both positions of each trip, in order. -/
def tripEnds (E : Env) (T : List Nat) : List Pos :=
  T.flatMap fun t => [(E.trip t).origin.position, (E.trip t).destination.position]

/-- The heap after `PlannedTrip(veh, t, u, d)`. -/
def afterPlan (h : Heap) (veh t u d : Nat) : Heap :=
  let h1 := h.allocPt ⟨veh, t, some u, some d⟩
  let h2 := h1.setStop u { h1.core.stop u with pickups := (h1.core.stop u).pickups.insert h.core.nPt }
  h2.setStop d { h2.core.stop d with deliveries := (h2.core.stop d).deliveries.insert h.core.nPt }

theorem newPlannedTrip_run {h : Heap} {veh t u d : Nat} (hu : (h.core.stop u).position = (E.trip t).origin.position)
    (hd : (h.core.stop d).position = (E.trip t).destination.position) (hud : u ≠ d) :
    newPlannedTrip E veh t (some u) (some d) h = (.ok h.core.nPt, afterPlan h veh t u d) := by
  unfold newPlannedTrip
  rw [Py.read_bind, Py.modify_bind]
  simp only [ifSome]
  have e1 : appendPickup E u h.core.nPt (h.allocPt ⟨veh, t, some u, some d⟩) = (.ok (),
      (h.allocPt ⟨veh, t, some u, some d⟩).setStop u { (h.allocPt ⟨veh, t, some u, some d⟩).core.stop u with
        pickups := ((h.allocPt ⟨veh, t, some u, some d⟩).core.stop u).pickups.insert h.core.nPt }) := by
    unfold appendPickup
    rw [Py.read_bind]
    have : decide ((ptTrip E (h.allocPt ⟨veh, t, some u, some d⟩).core h.core.nPt).origin.position =
        ((h.allocPt ⟨veh, t, some u, some d⟩).core.stop u).position) = true := by
      simp [ptTrip, Heap.allocPt, hu]
    rw [this, Py.bind_ok (Py.assert_true _)]
    rfl
  rw [Py.bind_ok e1]
  generalize hh1 : (h.allocPt ⟨veh, t, some u, some d⟩).setStop u { (h.allocPt ⟨veh, t, some u, some d⟩).core.stop u with
        pickups := ((h.allocPt ⟨veh, t, some u, some d⟩).core.stop u).pickups.insert h.core.nPt } = h2
  have e2 : appendDelivery E d h.core.nPt h2 = (.ok (), h2.setStop d { h2.core.stop d with
      deliveries := (h2.core.stop d).deliveries.insert h.core.nPt }) := by
    unfold appendDelivery
    rw [Py.read_bind]
    have : decide ((ptTrip E h2.core h.core.nPt).destination.position = (h2.core.stop d).position) = true := by
      rw [← hh1]
      simp [ptTrip, Heap.allocPt, Heap.setStop, Function.update_of_ne hud.symm, hd]
    rw [this, Py.bind_ok (Py.assert_true _)]
    rfl
  rw [Py.bind_ok e2, Py.pure_run, ← hh1]
  rfl

theorem insert_new {l : List Nat} {p : Nat} (h : p ∉ l) : l.insert p = p :: l := List.insert_of_not_mem h

theorem afterPlan_stop {h : Heap} {veh t u d : Nat} (hud : u ≠ d) (hu : h.core.nPt ∉ (h.core.stop u).pickups)
    (hd : h.core.nPt ∉ (h.core.stop d).deliveries) (s : Nat) : (afterPlan h veh t u d).core.stop s =
    { h.core.stop s with
      pickups := (if s = u then [h.core.nPt] else []) ++ (h.core.stop s).pickups
      deliveries := (if s = d then [h.core.nPt] else []) ++ (h.core.stop s).deliveries } := by
  unfold afterPlan
  simp only [Heap.setStop, Heap.allocPt]
  by_cases e1 : s = d
  · subst e1
    simp [hud.symm, insert_new hd]
  · by_cases e2 : s = u
    · subst e2
      simp [hud, insert_new hu]
    · simp [e1, e2]

theorem afterPlan_above {h : Heap} {veh t u d : Nat} {n q m : Nat} (hu : n ≤ u) (hd : n ≤ d) (hq : q ≤ h.core.nPt) :
    Above n q m h (afterPlan h veh t u d) where
  nStop := le_rfl
  nPt := Nat.le_succ _
  nRoute := le_rfl
  stop x hx := by
    simp only [afterPlan, Heap.setStop, Heap.allocPt]
    rw [Function.update_of_ne (by omega), Function.update_of_ne (by omega)]
  caches x hx := ⟨rfl, rfl, rfl, rfl⟩
  pt p hp := by
    simp only [afterPlan, Heap.setStop, Heap.allocPt]
    rw [Function.update_of_ne (by omega), Function.update_of_ne (by omega)]
    exact ⟨rfl, rfl⟩
  route x hx := ⟨rfl, rfl⟩

/-- What the loop over the trips leaves behind. -/
structure Planned (E : Env) (h h' : Heap) (veh : Nat) (L T : List Nat) : Prop where
  above : ∀ n q m, (∀ s ∈ L, n ≤ s) → q ≤ h.core.nPt → Above n q m h h'
  stops : h'.core.nStop = h.core.nStop
  stop : ∀ s, h'.core.stop s = if s ∈ L then { h.core.stop s with
      pickups := (pickedAt E T h.core.nPt (h.core.stop s).position).reverse ++ (h.core.stop s).pickups
      deliveries := (droppedAt E T h.core.nPt (h.core.stop s).position).reverse ++ (h.core.stop s).deliveries }
    else h.core.stop s
  sfeas : h'.sfeas = h.sfeas
  caches : h'.arr = h.arr ∧ h'.dep = h.dep ∧ h'.cap = h.cap
  route : h'.core.route = h.core.route
  routes : h'.core.nRoute = h.core.nRoute
  rfeas : h'.rfeas = h.rfeas
  nPt : h'.core.nPt = h.core.nPt + T.length
  pt : ∀ tq ∈ T.zipIdx h.core.nPt, h'.pfeas tq.2 = none ∧ ∃ u ∈ L, ∃ d ∈ L, h'.core.pt tq.2 = ⟨veh, tq.1, some u, some d⟩ ∧
    (h.core.stop u).position = (E.trip tq.1).origin.position ∧ (h.core.stop d).position = (E.trip tq.1).destination.position

theorem filter_eq_singleton {α β : Type} [DecidableEq β] {l : List α} {f : α → β} (hn : (l.map f).Nodup) {x : α}
    (hx : x ∈ l) : (l.filter fun y => decide (f y = f x)) = [x] := by
  induction l with
  | nil => simp at hx
  | cons y l ih =>
    rw [List.map_cons, List.nodup_cons] at hn
    rcases List.mem_cons.1 hx with rfl | hx
    · rw [List.filter_cons_of_pos (by simp)]
      have : (l.filter fun y => decide (f y = f x)) = [] := by
        rw [List.filter_eq_nil_iff]
        intro z hz e
        exact hn.1 (List.mem_map.2 ⟨z, hz, of_decide_eq_true e⟩)
      rw [this]
    · have hne : f y ≠ f x := fun e => hn.1 (e ▸ List.mem_map_of_mem hx)
      rw [List.filter_cons_of_neg (by simpa using hne), ih hn.2 hx]

theorem buildPlannedTrips_run {veh : Nat} : ∀ (T : List Nat) (h : Heap) (mapper : Pos → List Nat) (L : List Nat),
    (L.map fun s => (h.core.stop s).position).Nodup → (tripEnds E T).Nodup →
    (∀ p ∈ tripEnds E T, ∃ s ∈ L, (h.core.stop s).position = p) →
    (∀ p ∈ tripEnds E T, mapper p = stopMapper h.core L p) →
    (∀ s ∈ L, ∀ p ∈ (h.core.stop s).pickups ++ (h.core.stop s).deliveries, p < h.core.nPt) →
    ∃ h', buildPlannedTrips E veh mapper T h = (.ok (), h') ∧ Planned E h h' veh L T := by
  intro T
  induction T with
  | nil =>
    intro h mapper L _ _ _ _ _
    refine ⟨h, rfl, fun _ _ _ _ _ => Above.refl _ _ _ _, rfl, fun s => ?_, rfl, ⟨rfl, rfl, rfl⟩, rfl, rfl, rfl, rfl, by simp⟩
    simp [pickedAt, droppedAt]
  | cons t T ih =>
    intro h mapper L hL hT hmem hmap hold
    have hT' : (tripEnds E (t :: T)) = (E.trip t).origin.position :: (E.trip t).destination.position :: tripEnds E T := rfl
    rw [hT', List.nodup_cons, List.nodup_cons] at hT
    obtain ⟨hno, hnd, hTn⟩ := hT
    obtain ⟨u, huL, hu⟩ := hmem (E.trip t).origin.position (by simp [hT'])
    obtain ⟨d, hdL, hd⟩ := hmem (E.trip t).destination.position (by simp [hT'])
    have hod : (E.trip t).origin.position ≠ (E.trip t).destination.position := fun e => hno (by simp [e])
    have hud : u ≠ d := by rintro rfl; exact hod (hu.symm.trans hd)
    have hm1 : mapper (E.trip t).origin.position = [u] := by
      rw [hmap _ (by simp [hT']), stopMapper, ← hu]; exact filter_eq_singleton hL huL
    have hm2 : mapper (E.trip t).destination.position = [d] := by
      rw [hmap _ (by simp [hT']), stopMapper, ← hd]; exact filter_eq_singleton hL hdL
    have hpu : h.core.nPt ∉ (h.core.stop u).pickups := fun hx =>
      lt_irrefl _ (hold u huL _ (List.mem_append_left _ hx))
    have hpd : h.core.nPt ∉ (h.core.stop d).deliveries := fun hx =>
      lt_irrefl _ (hold d hdL _ (List.mem_append_right _ hx))
    have hst := afterPlan_stop (veh := veh) (t := t) hud hpu hpd
    generalize hh1 : afterPlan h veh t u d = h1 at hst
    have hpos : ∀ s, (h1.core.stop s).position = (h.core.stop s).position := fun s => by rw [hst s]
    have hn1 : h1.core.nPt = h.core.nPt + 1 := by rw [← hh1]; rfl
    obtain ⟨h', hrun, hP⟩ := ih h1 (Function.update (Function.update mapper (E.trip t).origin.position [])
        (E.trip t).destination.position []) L (by simpa only [hpos] using hL) hTn
      (fun p hp => by
        obtain ⟨s, hs, e⟩ := hmem p (by simp [hT', hp])
        exact ⟨s, hs, by rw [hpos, e]⟩)
      (fun p hp => by
        have h1 : p ≠ (E.trip t).destination.position := fun e => hnd (e ▸ hp)
        have h2 : p ≠ (E.trip t).origin.position := fun e => hno (e ▸ List.mem_cons_of_mem _ hp)
        rw [Function.update_of_ne h1, Function.update_of_ne h2, hmap p (by simp [hT', hp])]
        unfold stopMapper
        simp only [hpos])
      (fun s hs p hp => by
        rw [hn1]
        rw [hst s] at hp
        have : p = h.core.nPt ∨ p ∈ (h.core.stop s).pickups ++ (h.core.stop s).deliveries := by
          simp only [List.mem_append] at hp ⊢
          rcases hp with (hp | hp) | (hp | hp)
          · left; split at hp <;> simp_all
          · exact .inr (.inl hp)
          · left; split at hp <;> simp_all
          · exact .inr (.inr hp)
        rcases this with rfl | h2
        · omega
        · have := hold s hs p h2; omega)
    refine ⟨h', ?_, ?_, ?_, ?_, ?_, ?_, ?_, ?_, ?_, ?_, ?_⟩
    · rw [buildPlannedTrips]
      have e1 : popFirst mapper (E.trip t).origin.position h =
          (.ok (u, Function.update mapper (E.trip t).origin.position []), h) := by
        unfold popFirst; rw [hm1]; rfl
      rw [Py.bind_ok e1]
      have e2 : popFirst (Function.update mapper (E.trip t).origin.position []) (E.trip t).destination.position h =
          (.ok (d, Function.update (Function.update mapper (E.trip t).origin.position [])
            (E.trip t).destination.position []), h) := by
        unfold popFirst; rw [Function.update_of_ne hod.symm, hm2]; rfl
      simp only
      rw [Py.bind_ok e2]
      simp only
      rw [Py.bind_ok (newPlannedTrip_run hu hd hud), hh1, hrun]
    · intro n q m hn hq
      refine Above.trans ?_ (hP.above n q m hn (by omega))
      rw [← hh1]
      exact afterPlan_above (hn u huL) (hn d hdL) hq
    · rw [hP.stops, ← hh1]; rfl
    · intro s
      rw [hP.stop s]
      by_cases hs : s ∈ L
      · rw [if_pos hs, if_pos hs, hst s, hn1]
        simp only
        rw [pickedAt_cons, droppedAt_cons]
        have ku : s = u ↔ (E.trip t).origin.position = (h.core.stop s).position := by
          constructor
          · rintro rfl; exact hu.symm
          · intro e
            exact List.inj_on_of_nodup_map hL hs huL (by rw [hu]; exact e.symm)
        have kd : s = d ↔ (E.trip t).destination.position = (h.core.stop s).position := by
          constructor
          · rintro rfl; exact hd.symm
          · intro e
            exact List.inj_on_of_nodup_map hL hs hdL (by rw [hd]; exact e.symm)
        simp only [ku, kd, List.reverse_append, List.append_assoc]
        split <;> split <;> simp
      · rw [if_neg hs, if_neg hs, hst s]
        have h1 : s ≠ u := fun e => hs (e ▸ huL)
        have h2 : s ≠ d := fun e => hs (e ▸ hdL)
        simp [h1, h2]
    · rw [hP.sfeas, ← hh1]; rfl
    · rw [hP.caches.1, hP.caches.2.1, hP.caches.2.2, ← hh1]; exact ⟨rfl, rfl, rfl⟩
    · rw [hP.route, ← hh1]; rfl
    · rw [hP.routes, ← hh1]; rfl
    · rw [hP.rfeas, ← hh1]; rfl
    · rw [hP.nPt, hn1, List.length_cons]; omega
    · intro tq htq
      rw [List.zipIdx_cons, List.mem_cons] at htq
      rcases htq with rfl | htq
      · have ha := (hP.above 0 h1.core.nPt 0 (fun _ _ => Nat.zero_le _) le_rfl).pt h.core.nPt (by omega)
        refine ⟨?_, u, huL, d, hdL, ?_, hu, hd⟩
        · rw [ha.2, ← hh1]; simp [afterPlan, Heap.setStop, Heap.allocPt]
        · rw [ha.1, ← hh1]; simp [afterPlan, Heap.setStop, Heap.allocPt]
      · obtain ⟨a1, u', hu', d', hd', a2, a3, a4⟩ := hP.pt tq (by rw [hn1]; exact htq)
        exact ⟨a1, u', hu', d', hd', a2, by rw [← hpos]; exact a3, by rw [← hpos]; exact a4⟩

end Jinete
