import Verif.Proofs.MilpInsert
import Verif.Proofs.Insert
import Verif.Props.Feasible

/-!
# The route built from positions, trips and times
-/

set_option autoImplicit false

namespace Jinete

variable {E : Env}

/-- The visit at position `p` of a route that serves the trips `T`, at the time asked for. -/
def visitAt (E : Env) (T : List Nat) (time : Pos → ℚ) (p : Pos) : Visit where
  pos := p
  request := some (time p)
  picks := (T.filter fun t => decide ((E.trip t).origin.position = p)).reverse
  drops := (T.filter fun t => decide ((E.trip t).destination.position = p)).reverse

/-- The steps of `decodeRoute` on given positions and trips. -/
def buildRoute (E : Env) (P : Milp) (a : Assignment) (k veh : Nat) (ps : List Pos) (T : List Nat) : M Nat := do
  let r ← newRoute E veh
  let first ← firstStop r
  let stops ← positionsToStops veh [first] ps
  let h ← Py.read
  buildPlannedTrips E veh (stopMapper h.core stops) T
  Py.forEach stops (adjustWaitingTime P a k)
  Py.forEach stops fun s => do
    let _ ← insertStop r s
  pure r

theorem decodeRoute_eq (vs ts : List Nat) (a : Assignment) (k veh : Nat) : decodeRoute E vs ts a k veh =
    buildRoute E (milpOf E vs ts) a k veh ((milpOf E vs ts).visitedPositions a k)
      (((milpOf E vs ts).tripsOfPositions ((milpOf E vs ts).visitedPositions a k)).map fun i => ts.getD i 0) := rfl

/-- A new route in a heap, with an itinerary, and nothing memoised; everything older is unchanged. -/
structure NewRoute (E : Env) (h h' : Heap) (veh : Nat) (l : List Visit) : Prop where
  below : Below h h'
  count : h'.core.nRoute = h.core.nRoute + 1
  wf : WellFormed h'.core h.core.nRoute
  blank : ∀ s ∈ (h'.core.route h.core.nRoute).stops, Blank h' s
  verdicts : NoVerdicts h' h.core.nRoute
  vehicle : (h'.core.route h.core.nRoute).vehicle = veh
  stops : ∀ s ∈ (h'.core.route h.core.nRoute).stops, h.core.nStop ≤ s
  itin : itinerary h'.core h.core.nRoute = l

theorem NewRoute.agree {h h' : Heap} {veh : Nat} {l : List Visit} (n : NewRoute E h h' veh l) :
    CachesAgree E h' h.core.nRoute :=
  (cachesAgree_iff n.wf.toChained).2 fun s hs => (n.blank s hs).coh

theorem mem_after {l X Y pre suf : List Nat} {s d : Nat} (hn : l.Nodup) (h1 : l = X ++ Y) (h2 : l = pre ++ s :: suf)
    (hs : s ∈ X) (hd : d ∈ Y) : d ∈ suf ∧ s ≠ d := by
  have hne : s ≠ d := by
    rintro rfl
    rw [h1] at hn
    exact (List.nodup_append.1 hn).2.2 s hs s hd rfl
  refine ⟨?_, hne⟩
  have hdl : d ∈ pre ++ s :: suf := by rw [← h2, h1]; exact List.mem_append_right _ hd
  rcases List.mem_append.1 hdl with hp | hp
  · exfalso
    have i1 : l.idxOf s < X.length := by
      rw [h1, List.idxOf_append_of_mem hs]; exact List.idxOf_lt_length_iff.2 hs
    have hdX : d ∉ X := by
      intro hx
      rw [h1] at hn
      exact (List.nodup_append.1 hn).2.2 d hx d hd rfl
    have i2 : X.length ≤ l.idxOf d := by
      rw [h1, List.idxOf_append_of_notMem hdX]; omega
    have hsp : s ∉ pre := by
      intro hx
      rw [h2] at hn
      exact (List.nodup_append.1 hn).2.2 s hx s (by simp) rfl
    have i3 : l.idxOf s = pre.length := by
      rw [h2, List.idxOf_append_of_notMem hsp]; simp
    have i4 : l.idxOf d < pre.length := by
      rw [h2, List.idxOf_append_of_mem hp]; exact List.idxOf_lt_length_iff.2 hp
    omega
  · rcases List.mem_cons.1 hp with e | hp
    · exact absurd e.symm hne
    · exact hp

theorem mem_before {l X Y pre suf : List Nat} {s d : Nat} (hn : l.Nodup) (h1 : l = X ++ Y) (h2 : l = pre ++ d :: suf)
    (hs : s ∈ X) (hd : d ∈ Y) : s ∈ pre := by
  have hsl : s ∈ pre ++ d :: suf := by rw [← h2, h1]; exact List.mem_append_left _ hs
  rcases List.mem_append.1 hsl with hp | hp
  · exact hp
  · exfalso
    rcases List.mem_cons.1 hp with e | hp
    · subst e
      rw [h1] at hn
      exact (List.nodup_append.1 hn).2.2 s hs s hd rfl
    · obtain ⟨p1, p2, rfl⟩ := List.append_of_mem hp
      have hd2 := (mem_after hn h1 (pre := pre ++ d :: p1) (suf := p2) (by rw [h2]; simp) hs hd).1
      rw [h2] at hn
      have hn2 := (List.nodup_append.1 hn).2.1
      rw [List.nodup_cons] at hn2
      exact hn2.1 (List.mem_append_right _ (List.mem_cons_of_mem _ hd2))

theorem mem_pickedAt {T : List Nat} {q x : Nat} {p : Pos} : x ∈ pickedAt E T q p ↔
    ∃ t, (t, x) ∈ T.zipIdx q ∧ (E.trip t).origin.position = p := by
  unfold pickedAt
  simp only [List.mem_map, List.mem_filter, decide_eq_true_eq]
  constructor
  · rintro ⟨⟨t, y⟩, ⟨h1, h2⟩, rfl⟩; exact ⟨t, h1, h2⟩
  · rintro ⟨t, h1, h2⟩; exact ⟨(t, x), ⟨h1, h2⟩, rfl⟩

theorem mem_droppedAt {T : List Nat} {q x : Nat} {p : Pos} : x ∈ droppedAt E T q p ↔
    ∃ t, (t, x) ∈ T.zipIdx q ∧ (E.trip t).destination.position = p := by
  unfold droppedAt
  simp only [List.mem_map, List.mem_filter, decide_eq_true_eq]
  constructor
  · rintro ⟨⟨t, y⟩, ⟨h1, h2⟩, rfl⟩; exact ⟨t, h1, h2⟩
  · rintro ⟨t, h1, h2⟩; exact ⟨(t, x), ⟨h1, h2⟩, rfl⟩

theorem zipIdx_filter_fst (f : Nat → Bool) : ∀ (T : List Nat) (q : Nat),
    ((T.zipIdx q).filter fun tq => f tq.1).map Prod.fst = T.filter f := by
  intro T
  induction T with
  | nil => intro q; rfl
  | cons t T ih =>
    intro q
    rw [List.zipIdx_cons]
    cases h : f t <;> simp [h, ih]

theorem zipIdx_snd_nodup (T : List Nat) (q : Nat) : ((T.zipIdx q).map Prod.snd).Nodup := by
  rw [List.zipIdx_map_snd]; exact List.nodup_range' ..

theorem pickedAt_nodup (T : List Nat) (q : Nat) (p : Pos) : (pickedAt E T q p).Nodup :=
  (zipIdx_snd_nodup T q).sublist (List.filter_sublist.map _)

theorem droppedAt_nodup (T : List Nat) (q : Nat) (p : Pos) : (droppedAt E T q p).Nodup :=
  (zipIdx_snd_nodup T q).sublist (List.filter_sublist.map _)

theorem zipIdx_mem_lt {T : List Nat} {q t x : Nat} (h : (t, x) ∈ T.zipIdx q) : q ≤ x ∧ x < q + T.length := by
  have := List.mem_zipIdx h
  omega

theorem tripEnds_origin {T : List Nat} {t : Nat} (h : t ∈ T) : (E.trip t).origin.position ∈ tripEnds E T :=
  List.mem_flatMap.2 ⟨t, h, by simp⟩

theorem tripEnds_destination {T : List Nat} {t : Nat} (h : t ∈ T) : (E.trip t).destination.position ∈ tripEnds E T :=
  List.mem_flatMap.2 ⟨t, h, by simp⟩

theorem tripEnds_disjoint {T : List Nat} (hn : (tripEnds E T).Nodup) {t t' : Nat} (h : t ∈ T) (h' : t' ∈ T) :
    (E.trip t).origin.position ≠ (E.trip t').destination.position := by
  induction T with
  | nil => simp at h
  | cons x T ih =>
    have e : tripEnds E (x :: T) = (E.trip x).origin.position :: (E.trip x).destination.position :: tripEnds E T := rfl
    rw [e, List.nodup_cons, List.nodup_cons] at hn
    obtain ⟨h1, h2, h3⟩ := hn
    rcases List.mem_cons.1 h with a | a <;> rcases List.mem_cons.1 h' with b | b
    · subst a; subst b; intro e; exact h1 (by simp [e])
    · subst a; intro e; exact h1 (e ▸ List.mem_cons_of_mem _ (tripEnds_destination b))
    · subst b; intro e; exact h2 (e ▸ tripEnds_origin a)
    · exact ih h3 a b

theorem tripEnds_inj {T : List Nat} (hn : (tripEnds E T).Nodup) : (T.map fun t => (E.trip t).origin.position).Nodup := by
  refine hn.sublist ?_
  induction T with
  | nil => simp
  | cons x T ih =>
    have e : tripEnds E (x :: T) = (E.trip x).origin.position :: (E.trip x).destination.position :: tripEnds E T := rfl
    rw [e, List.map_cons]
    rw [e, List.nodup_cons, List.nodup_cons] at hn
    exact ((ih hn.2.2).cons _).cons_cons _

theorem newRoute_parts (veh : Nat) (h : Heap) : ∃ h', newRoute E veh h = (.ok h.core.nRoute, h') ∧
    Above h.core.nStop h.core.nPt h.core.nRoute h h' ∧ h'.core.nStop = h.core.nStop + 2 ∧ h'.core.nPt = h.core.nPt ∧
    h'.core.nRoute = h.core.nRoute + 1 ∧ h'.core.route h.core.nRoute = ⟨veh, [h.core.nStop, h.core.nStop + 1]⟩ ∧
    h'.core.stop h.core.nStop = ⟨veh, (E.vehicle veh).origin.position, none, [], [], none⟩ ∧
    h'.core.stop (h.core.nStop + 1) = ⟨veh, (E.vehicle veh).destination.position, some h.core.nStop, [], [], none⟩ ∧
    h'.rfeas h.core.nRoute = none ∧ ∀ x, x = h.core.nStop ∨ x = h.core.nStop + 1 → Blank h' x ∧ h'.sfeas x = none := by
  set n := h.core.nStop with hn
  set h1 := h.allocStop ⟨veh, (E.vehicle veh).origin.position, none, [], [], none⟩ with hh1
  set h2 := h1.allocStop ⟨veh, (E.vehicle veh).destination.position, some n, [], [], none⟩ with hh2
  set h3 := h2.allocRoute ⟨veh, [n, n + 1]⟩ with hh3
  have run : newRoute E veh h = (.ok h.core.nRoute, h3) := rfl
  have upd : ∀ {β : Type} (f : Nat → β) (a b : β) (x : Nat), x < n →
      Function.update (Function.update f n a) (n + 1) b x = f x := by
    intro β f a b x hx
    rw [Function.update_of_ne (by omega), Function.update_of_ne (by omega)]
  refine ⟨h3, run, ?_, rfl, rfl, rfl, Function.update_self _ _ _, ?_, Function.update_self _ _ _, Function.update_self _ _ _, ?_⟩
  · refine ⟨?_, le_refl _, ?_, fun x hx => upd _ _ _ x hx,
      fun x hx => ⟨upd _ _ _ x hx, upd _ _ _ x hx, upd _ _ _ x hx, upd _ _ _ x hx⟩,
      fun p _ => ⟨rfl, rfl⟩, fun q hq => ⟨?_, ?_⟩⟩
    · show n ≤ n + 2; omega
    · show h.core.nRoute ≤ h.core.nRoute + 1; omega
    · exact Function.update_of_ne (Nat.ne_of_lt hq) _ _
    · exact Function.update_of_ne (Nat.ne_of_lt hq) _ _
  · have a : h3.core.stop n = h1.core.stop n := Function.update_of_ne (by show n ≠ n + 1; omega) _ _
    rw [a]; exact Function.update_self _ _ _
  · rintro x (rfl | rfl)
    · have key : ∀ {β : Type} (f : Nat → Option β), Function.update (Function.update f n none) (n + 1) none n = none := by
        intro β f
        rw [Function.update_of_ne (by omega), Function.update_self]
      exact ⟨⟨key _, key _, key _⟩, key _⟩
    · exact ⟨⟨Function.update_self _ _ _, Function.update_self _ _ _, Function.update_self _ _ _⟩, Function.update_self _ _ _⟩

/-- The raw content of the heap after `buildRoute`. -/
structure RawRoute (E : Env) (h h' : Heap) (veh : Nat) (ps : List Pos) (T : List Nat) (time : Pos → ℚ) (F : List Nat) : Prop where
  above : Above h.core.nStop h.core.nPt h.core.nRoute h h'
  nRoute : h'.core.nRoute = h.core.nRoute + 1
  route : h'.core.route h.core.nRoute = ⟨veh, h.core.nStop :: F ++ [h.core.nStop + 1]⟩
  nodup : (h.core.nStop :: F ++ [h.core.nStop + 1]).Nodup
  fresh : ∀ s ∈ h.core.nStop :: F ++ [h.core.nStop + 1], h.core.nStop ≤ s ∧ s < h'.core.nStop
  first : h'.core.stop h.core.nStop = ⟨veh, (E.vehicle veh).origin.position, none, [], [],
    some (time (E.vehicle veh).origin.position)⟩
  last : h'.core.stop (h.core.nStop + 1) = ⟨veh, (E.vehicle veh).destination.position,
    some ((h.core.nStop :: F).getLast (by simp)), [], [], none⟩
  pos : F.map (fun s => (h'.core.stop s).position) = ps
  linked : LinkedFrom h'.core (some h.core.nStop) F
  inner : ∀ s ∈ F, (h'.core.stop s).vehicle = veh ∧ (h'.core.stop s).start = some (time (h'.core.stop s).position) ∧
    (h'.core.stop s).pickups = (pickedAt E T h.core.nPt (h'.core.stop s).position).reverse ∧
    (h'.core.stop s).deliveries = (droppedAt E T h.core.nPt (h'.core.stop s).position).reverse
  nPt : h'.core.nPt = h.core.nPt + T.length
  pt : ∀ tq ∈ T.zipIdx h.core.nPt, h'.pfeas tq.2 = none ∧ ∃ u ∈ F, ∃ d ∈ F,
    h'.core.pt tq.2 = ⟨veh, tq.1, some u, some d⟩ ∧
    (h'.core.stop u).position = (E.trip tq.1).origin.position ∧ (h'.core.stop d).position = (E.trip tq.1).destination.position
  blank : ∀ s ∈ h.core.nStop :: F ++ [h.core.nStop + 1], Blank h' s ∧ h'.sfeas s = none
  rfeas : h'.rfeas h.core.nRoute = none

theorem RawRoute.newRoute {h h' : Heap} {veh : Nat} {ps : List Pos} {T : List Nat} {time : Pos → ℚ} {F : List Nat}
    (w : RawRoute E h h' veh ps T time F) (hps : ps.Nodup) (hT : (tripEnds E T).Nodup)
    (hord : ∀ t ∈ T, ∃ A B, ps = A ++ B ∧ (E.trip t).origin.position ∈ A ∧ (E.trip t).destination.position ∈ B) :
    NewRoute E h h' veh (⟨(E.vehicle veh).origin.position, some (time (E.vehicle veh).origin.position), [], []⟩ ::
      ps.map (visitAt E T time) ++ [⟨(E.vehicle veh).destination.position, none, [], []⟩]) := by
  set z := h.core.nStop with hz
  set r := h.core.nRoute with hr
  have hst : (h'.core.route r).stops = z :: F ++ [z + 1] := by rw [w.route]
  have hinj : ∀ s ∈ F, ∀ s' ∈ F, (h'.core.stop s).position = (h'.core.stop s').position → s = s' := fun s hs s' hs' e =>
    List.inj_on_of_nodup_map (by rw [w.pos]; exact hps) hs hs' e
  -- the planned trips of the stops
  have hcase : ∀ s ∈ z :: F ++ [z + 1], s ∈ F ∨ ((h'.core.stop s).pickups = [] ∧ (h'.core.stop s).deliveries = []) := by
    intro s hs
    rcases List.mem_append.1 hs with hs | hs
    · rcases List.mem_cons.1 hs with rfl | hs
      · right; rw [w.first]; exact ⟨rfl, rfl⟩
      · exact .inl hs
    · rw [List.mem_singleton] at hs
      subst hs
      right; rw [w.last]; exact ⟨rfl, rfl⟩
  have hpick : ∀ s ∈ F, ∀ p, p ∈ (h'.core.stop s).pickups ↔
      ∃ t, (t, p) ∈ T.zipIdx h.core.nPt ∧ (E.trip t).origin.position = (h'.core.stop s).position := by
    intro s hs p
    rw [(w.inner s hs).2.2.1, List.mem_reverse, mem_pickedAt]
  have hdrop : ∀ s ∈ F, ∀ p, p ∈ (h'.core.stop s).deliveries ↔
      ∃ t, (t, p) ∈ T.zipIdx h.core.nPt ∧ (E.trip t).destination.position = (h'.core.stop s).position := by
    intro s hs p
    rw [(w.inner s hs).2.2.2, List.mem_reverse, mem_droppedAt]
  -- order of the stops of one trip
  have hord' : ∀ t ∈ T, ∀ u ∈ F, ∀ d ∈ F, (h'.core.stop u).position = (E.trip t).origin.position →
      (h'.core.stop d).position = (E.trip t).destination.position →
      ∃ X Y, z :: F ++ [z + 1] = X ++ Y ∧ u ∈ X ∧ d ∈ Y := by
    intro t ht u hu d hd eu ed
    obtain ⟨A, B, e, hA, hB⟩ := hord t ht
    have e1 : (F.take A.length).map (fun s => (h'.core.stop s).position) = A := by
      rw [List.map_take, w.pos, e]; simp
    have e2 : (F.drop A.length).map (fun s => (h'.core.stop s).position) = B := by
      rw [List.map_drop, w.pos, e]; simp
    refine ⟨z :: F.take A.length, F.drop A.length ++ [z + 1], ?_, ?_, ?_⟩
    · rw [List.cons_append, List.cons_append, ← List.append_assoc, List.take_append_drop]
    · rw [← e1] at hA
      obtain ⟨s, hs, es⟩ := List.mem_map.1 hA
      have : s = u := hinj s (List.mem_of_mem_take hs) u hu (es.trans eu.symm)
      exact List.mem_cons_of_mem _ (this ▸ hs)
    · rw [← e2] at hB
      obtain ⟨s, hs, es⟩ := List.mem_map.1 hB
      have : s = d := hinj s (List.mem_of_mem_drop hs) d hd (es.trans ed.symm)
      exact List.mem_append_left _ (this ▸ hs)
  have htrip : ∀ t p, (t, p) ∈ T.zipIdx h.core.nPt → t ∈ T := fun t p hp => by
    have := List.mem_map_of_mem (f := Prod.fst) hp
    rwa [List.zipIdx_map_fst] at this
  have hlen : (z :: F).getLast? = some ((z :: F).getLast (by simp)) := List.getLast?_eq_some_getLast _
  -- what the visits are
  have hvis : ∀ s ∈ F, visitOf h'.core s = visitAt E T time (h'.core.stop s).position := by
    intro s hs
    obtain ⟨_, i2, i3, i4⟩ := w.inner s hs
    have hmap : ∀ (f : Nat × Nat → Bool), (((T.zipIdx h.core.nPt).filter f).map Prod.snd).map (fun p => (h'.core.pt p).trip) =
        ((T.zipIdx h.core.nPt).filter f).map Prod.fst := by
      intro f
      rw [List.map_map]
      refine List.map_congr_left fun tq htq => ?_
      obtain ⟨_, u, _, d, _, e, _⟩ := w.pt tq (List.mem_of_mem_filter htq)
      simp [e]
    unfold visitOf visitAt
    rw [i2, i3, i4]
    congr 1
    · rw [List.map_reverse]
      unfold pickedAt
      rw [hmap, zipIdx_filter_fst (fun t => decide ((E.trip t).origin.position = (h'.core.stop s).position))]
    · rw [List.map_reverse]
      unfold droppedAt
      rw [hmap, zipIdx_filter_fst (fun t => decide ((E.trip t).destination.position = (h'.core.stop s).position))]
  have hitin : itinerary h'.core r = ⟨(E.vehicle veh).origin.position, some (time (E.vehicle veh).origin.position), [], []⟩ ::
      ps.map (visitAt E T time) ++ [⟨(E.vehicle veh).destination.position, none, [], []⟩] := by
    unfold itinerary
    rw [hst, List.map_append, List.map_cons, List.map_cons, List.map_nil]
    congr 1
    · congr 1
      · unfold visitOf; rw [w.first]; rfl
      · rw [← w.pos, List.map_map]
        exact List.map_congr_left fun s hs => hvis s hs
    · unfold visitOf; rw [w.last]; rfl
  have hwf : WellFormed h'.core r := by
    refine { nodup := ?_, alloc := ?_, linked := ?_, vehicle := ?_, exists_ := ?_, length := ?_, depot := ?_, pick := ?_, drop := ?_, sets := ?_, trips := ?_ }
    · rw [hst]; exact w.nodup
    · intro s hs; rw [hst] at hs; exact (w.fresh s hs).2
    · rw [hst, linked_append]
      refine ⟨?_, ?_⟩
      · rw [linked_iff_from]
        exact ⟨by rw [w.first], w.linked⟩
      · rw [hlen]; exact ⟨by rw [w.last], trivial⟩
    · intro s hs
      rw [hst] at hs
      rw [w.route]
      rcases List.mem_append.1 hs with hs | hs
      · rcases List.mem_cons.1 hs with rfl | hs
        · rw [w.first]
        · exact (w.inner s hs).1
      · rw [List.mem_singleton] at hs
        subst hs
        rw [w.last]
    · rw [w.nRoute]; omega
    · rw [hst]; simp
    · intro s hs
      rw [hst] at hs
      simp only [List.cons_append, List.head?_cons, Option.mem_some_iff] at hs
      subst hs
      rw [w.first]; exact ⟨rfl, rfl⟩
    · intro pre s suf e p hp
      rw [hst] at e
      have hs : s ∈ z :: F ++ [z + 1] := by rw [e]; simp
      rcases hcase s hs with hF | hF
      · obtain ⟨t, ht, et⟩ := (hpick s hF p).1 hp
        obtain ⟨_, u, hu, d, hd, e1, e2, e3⟩ := w.pt (t, p) ht
        have hus : u = s := hinj u hu s hF (e2.trans et)
        subst hus
        obtain ⟨X, Y, hXY, huX, hdY⟩ := hord' t (htrip t p ht) u hu d hd e2 e3
        refine ⟨by rw [w.nPt]; exact (zipIdx_mem_lt ht).2, by rw [e1], d, (mem_after w.nodup hXY e huX hdY).1, by rw [e1], ?_⟩
        exact (hdrop d hd p).2 ⟨t, ht, e3.symm⟩
      · rw [hF.1] at hp; simp at hp
    · intro pre s suf e p hp
      rw [hst] at e
      have hs : s ∈ z :: F ++ [z + 1] := by rw [e]; simp
      rcases hcase s hs with hF | hF
      · obtain ⟨t, ht, et⟩ := (hdrop s hF p).1 hp
        obtain ⟨_, u, hu, d, hd, e1, e2, e3⟩ := w.pt (t, p) ht
        have hds : d = s := hinj d hd s hF (e3.trans et)
        subst hds
        obtain ⟨X, Y, hXY, huX, hdY⟩ := hord' t (htrip t p ht) u hu d hd e2 e3
        refine ⟨by rw [w.nPt]; exact (zipIdx_mem_lt ht).2, by rw [e1], u, mem_before w.nodup hXY e huX hdY, by rw [e1], ?_⟩
        exact (hpick u hu p).2 ⟨t, ht, e2.symm⟩
      · rw [hF.2] at hp; simp at hp
    · intro s hs
      rw [hst] at hs
      rcases hcase s hs with hF | hF
      · rw [(w.inner s hF).2.2.1, (w.inner s hF).2.2.2, List.nodup_reverse, List.nodup_reverse]
        exact ⟨pickedAt_nodup _ _ _, droppedAt_nodup _ _ _⟩
      · rw [hF.1, hF.2]; exact ⟨List.nodup_nil, List.nodup_nil⟩
    · rw [hitin]
      simp only [List.cons_append, List.flatMap_cons, List.flatMap_append, List.flatMap_nil, List.nil_append, List.append_nil]
      rw [List.flatMap_map]
      rw [List.nodup_flatMap]
      have hTn : T.Nodup := (tripEnds_inj hT).of_map _
      refine ⟨fun p _ => List.nodup_reverse.2 (hTn.filter _), hps.imp fun {p q} hpq t h1 h2 => ?_⟩
      simp only [visitAt, List.mem_reverse, List.mem_filter, decide_eq_true_eq] at h1 h2
      exact hpq (h1.2.symm.trans h2.2)
  refine ⟨⟨w.above.nStop, w.above.nPt, w.above.nRoute, w.above.stop, w.above.caches, w.above.pt, w.above.route⟩, w.nRoute, hwf,
    ?_, ?_, by rw [w.route], ?_, hitin⟩
  · intro s hs; rw [hst] at hs; exact (w.blank s hs).1
  · refine ⟨w.rfeas, ?_, ?_⟩
    · intro s hs; rw [hst] at hs; exact (w.blank s hs).2
    · intro s hs p hp
      rw [hst] at hs
      rcases hcase s hs with hF | hF
      · obtain ⟨t, ht, _⟩ := (hpick s hF p).1 hp
        exact (w.pt (t, p) ht).1
      · rw [hF.1] at hp; simp at hp
  · intro s hs; rw [hst] at hs; exact (w.fresh s hs).1

theorem Below.of_above {h h' : Heap} (a : Above h.core.nStop h.core.nPt h.core.nRoute h h') : Below h h' :=
  ⟨a.nStop, a.nPt, a.nRoute, a.stop, a.caches, a.pt, a.route⟩

theorem buildRoute_raw {P : Milp} {a : Assignment} {k veh : Nat} {ps : List Pos} {T : List Nat} (h : Heap)
    (hn : ((E.vehicle veh).origin.position :: ps).Nodup) (hT : (tripEnds E T).Nodup) (hsub : ∀ p ∈ tripEnds E T, p ∈ ps)
    (hpos : ∀ p ∈ (E.vehicle veh).origin.position :: ps, p ∈ P.positions) {lead : List Pos}
    (hlead : ∀ p ∈ lead, p = (E.vehicle veh).origin.position) :
    ∃ h' F, buildRoute E P a k veh (lead ++ ps) T h = (.ok h.core.nRoute, h') ∧
      RawRoute E h h' veh ps T (fun p => a.u k (P.positions.idxOf p)) F := by
  set z := h.core.nStop with hz
  set r := h.core.nRoute with hr
  obtain ⟨h3, run3, ab3, n3, q3, m3, rt3, sz3, sw3, rf3, bl3⟩ := newRoute_parts (E := E) veh h
  rw [← hz] at n3 rt3 sz3 sw3 bl3 ab3
  rw [← hr] at run3 m3 rt3 rf3 ab3
  have skip : ∀ lead : List Pos, (∀ p ∈ lead, p = (E.vehicle veh).origin.position) →
      positionsToStops veh [z] (lead ++ ps) h3 = positionsToStops veh [z] ps h3 := by
    intro lead
    induction lead with
    | nil => intro _; rfl
    | cons p lead ih =>
      intro hl
      rw [List.cons_append, positionsToStops_skip (z := z) (by simp) (by rw [sz3]; exact hl p (by simp)),
        ih fun q hq => hl q (List.mem_cons_of_mem _ hq)]
  have first3 : firstStop r h3 = (.ok z, h3) := by
    unfold firstStop
    have e1 : routeStops r h3 = (.ok [z, z + 1], h3) := by simp [routeStops, rt3]
    rw [Py.bind_ok e1]
    have e2 : (Py.index [z, z + 1] 0 : M Nat) h3 = (.ok z, h3) := rfl
    rw [Py.bind_ok e2, Py.read_bind, sz3]
    rfl
  -- stops
  have hch : ((h3.core.stop z).position :: ps).IsChain (· ≠ ·) := by
    rw [sz3]; exact List.Pairwise.isChain hn
  obtain ⟨h4, F, run4, f4⟩ := positionsToStops_run (veh := veh) ps h3 [z] z (by simp) (by omega) hch
  have ab4 := f4.above (z + 2) h3.core.nPt h3.core.nRoute (by omega)
  have sz4 : h4.core.stop z = ⟨veh, (E.vehicle veh).origin.position, none, [], [], none⟩ := by
    rw [ab4.stop z (by omega), sz3]
  have sw4 : h4.core.stop (z + 1) = ⟨veh, (E.vehicle veh).destination.position, some z, [], [], none⟩ := by
    rw [ab4.stop (z + 1) (by omega), sw3]
  have fresh4 : ∀ s ∈ F, z + 2 ≤ s ∧ s < h4.core.nStop := fun s hs => by have := f4.fresh s hs; omega
  have lpos4 : ([z] ++ F).map (fun s => (h4.core.stop s).position) = (E.vehicle veh).origin.position :: ps := by
    rw [List.map_append, f4.pos, List.map_cons, List.map_nil, sz4]; rfl
  -- planned trips
  obtain ⟨h5, run5, p5⟩ := buildPlannedTrips_run (veh := veh) (E := E) T h4 (stopMapper h4.core ([z] ++ F)) ([z] ++ F)
    (by rw [lpos4]; exact hn) hT
    (fun p hp => by
      have : p ∈ ([z] ++ F).map (fun s => (h4.core.stop s).position) := by
        rw [lpos4]; exact List.mem_cons_of_mem _ (hsub p hp)
      obtain ⟨s, hs, e⟩ := List.mem_map.1 this
      exact ⟨s, hs, e⟩)
    (fun p _ => rfl)
    (fun s hs p hp => by
      exfalso
      rcases List.mem_append.1 hs with hs | hs
      · rw [List.mem_singleton] at hs; subst hs; rw [sz4] at hp; simp at hp
      · rw [(f4.plain s hs).2.1, (f4.plain s hs).2.2] at hp; simp at hp)
  have q4 : h4.core.nPt = h.core.nPt := by rw [f4.pts, q3]
  have hzp : (E.vehicle veh).origin.position ∉ ps := (List.nodup_cons.1 hn).1
  have nop : ∀ q, pickedAt E T q (E.vehicle veh).origin.position = [] := by
    intro q
    rw [List.eq_nil_iff_forall_not_mem]
    intro x hx
    obtain ⟨t, ht, e⟩ := mem_pickedAt.1 hx
    have ht' : t ∈ T := by
      have := List.mem_map_of_mem (f := Prod.fst) ht
      rwa [List.zipIdx_map_fst] at this
    exact hzp (e ▸ hsub _ (tripEnds_origin ht'))
  have nod : ∀ q, droppedAt E T q (E.vehicle veh).origin.position = [] := by
    intro q
    rw [List.eq_nil_iff_forall_not_mem]
    intro x hx
    obtain ⟨t, ht, e⟩ := mem_droppedAt.1 hx
    have ht' : t ∈ T := by
      have := List.mem_map_of_mem (f := Prod.fst) ht
      rwa [List.zipIdx_map_fst] at this
    exact hzp (e ▸ hsub _ (tripEnds_destination ht'))
  have sz5 : h5.core.stop z = ⟨veh, (E.vehicle veh).origin.position, none, [], [], none⟩ := by
    rw [p5.stop z, if_pos (by simp), sz4]
    simp only [nop, nod]
    rfl
  have hwL : z + 1 ∉ [z] ++ F := by
    intro hm
    rcases List.mem_append.1 hm with hm | hm
    · simp at hm
    · have := fresh4 _ hm; omega
  have sw5 : h5.core.stop (z + 1) = ⟨veh, (E.vehicle veh).destination.position, some z, [], [], none⟩ := by
    rw [p5.stop (z + 1), if_neg hwL, sw4]
  have sF5 : ∀ s ∈ F, h5.core.stop s = { h4.core.stop s with
      pickups := (pickedAt E T h.core.nPt (h4.core.stop s).position).reverse
      deliveries := (droppedAt E T h.core.nPt (h4.core.stop s).position).reverse } := by
    intro s hs
    rw [p5.stop s, if_pos (by simp [hs]), q4, (f4.plain s hs).2.1, (f4.plain s hs).2.2, List.append_nil, List.append_nil]
  -- times
  have lpos5 : ∀ s ∈ [z] ++ F, (h5.core.stop s).position = (h4.core.stop s).position := by
    intro s hs; rw [p5.stop s, if_pos hs]
  obtain ⟨h6, run6, t6⟩ := adjustAll_run (P := P) (a := a) (k := k) ([z] ++ F) h5 (fun s hs => by
    rw [lpos5 s hs]
    refine hpos _ ?_
    rw [← lpos4]
    exact List.mem_map_of_mem (f := fun s => (h4.core.stop s).position) hs)
  set time : Pos → ℚ := fun p => a.u k (P.positions.idxOf p) with htime
  have sz6 : h6.core.stop z = ⟨veh, (E.vehicle veh).origin.position, none, [], [],
      some (time (E.vehicle veh).origin.position)⟩ := by
    rw [t6.stop z, if_pos (by simp), sz5]
  have sw6 : h6.core.stop (z + 1) = ⟨veh, (E.vehicle veh).destination.position, some z, [], [], none⟩ := by
    rw [t6.stop (z + 1), if_neg hwL, sw5]
  have sF6 : ∀ s ∈ F, h6.core.stop s = { h4.core.stop s with
      pickups := (pickedAt E T h.core.nPt (h4.core.stop s).position).reverse
      deliveries := (droppedAt E T h.core.nPt (h4.core.stop s).position).reverse
      start := some (time (h4.core.stop s).position) } := by
    intro s hs
    rw [t6.stop s, if_pos (by simp [hs]), sF5 s hs]
  have rt6 : h6.core.route r = ⟨veh, [z, z + 1]⟩ := by
    rw [t6.route, p5.route, (ab4.route r (by omega)).1, rt3]
  -- insertion of the first stop
  obtain ⟨x7, h7, run7, i7⟩ := reinsert_first (h := h6) (r := r) (z := z) (w := z + 1) (by rw [rt6]) (by rw [sz6])
    (by rw [sw6]) (by omega) (by rw [sz6]; simp)
  have hFw : ∀ s ∈ F, s ≠ z + 1 := fun s hs => by have := fresh4 s hs; omega
  have hnd : ([z] ++ F ++ [z + 1]).Nodup := by
    rw [List.nodup_append, List.nodup_append]
    refine ⟨⟨by simp, f4.nodup, ?_⟩, by simp, ?_⟩
    · intro x hx y hy
      rw [List.mem_singleton] at hx
      have := fresh4 y hy; omega
    · intro x hx y hy e
      rw [List.mem_singleton] at hy
      exact hwL (hy ▸ e ▸ hx)
  have disj : ∀ s ∈ F, ∀ p ∈ (h6.core.stop s).pickups, p ∉ (h6.core.stop s).deliveries := by
    intro s hs p hp hd
    rw [sF6 s hs] at hp hd
    simp only [List.mem_reverse] at hp hd
    obtain ⟨t, ht, e⟩ := mem_pickedAt.1 hp
    obtain ⟨t', ht', e'⟩ := mem_droppedAt.1 hd
    have m1 : t ∈ T := by
      have := List.mem_map_of_mem (f := Prod.fst) ht
      rwa [List.zipIdx_map_fst] at this
    have m2 : t' ∈ T := by
      have := List.mem_map_of_mem (f := Prod.fst) ht'
      rwa [List.zipIdx_map_fst] at this
    exact tripEnds_disjoint hT m1 m2 (e.trans e'.symm)
  have link6 : LinkedFrom h6.core (some z) F := f4.linked.congr fun s hs => by rw [sF6 s hs]
  have link7 : LinkedFrom h7.core (some z) F := link6.congr fun s hs => by rw [i7.stop s (hFw s hs)]
  obtain ⟨h8, run8, i8⟩ := insertStops_run (r := r) (w := z + 1) F h7 [] z (by rw [i7.route]; simp) (by simpa using hnd)
    link7 (by rw [i7.final]) (fun s hs => by rw [i7.stop s (hFw s hs)]; exact disj s hs)
  have i68 : Inserted h6 h8 r (z + 1) ([] ++ [z] ++ F) ((z :: F).getLast (by simp)) :=
    i7.trans i8 (by simp) (by simpa using hwL)
  have stopF : ∀ s ∈ F, h8.core.stop s = { h4.core.stop s with
      pickups := (pickedAt E T h.core.nPt (h4.core.stop s).position).reverse
      deliveries := (droppedAt E T h.core.nPt (h4.core.stop s).position).reverse
      start := some (time (h4.core.stop s).position) } := fun s hs => by rw [i68.stop s (hFw s hs), sF6 s hs]
  have hmem8 : ∀ s, s ∈ [] ++ [z] ++ F ++ [z + 1] ↔ s = z ∨ s ∈ F ∨ s = z + 1 := by
    intro s; simp
  have q5 : h5.core.nPt = h.core.nPt + T.length := by rw [p5.nPt, q4]
  have ptsF : ∀ s, s ∈ [z] ++ F → ∀ p ∈ ptsAt h5.core s, h.core.nPt ≤ p := by
    intro s hs p hp
    rcases List.mem_append.1 hs with hs | hs
    · rw [List.mem_singleton] at hs; subst hs
      unfold ptsAt at hp; rw [sz5] at hp; simp at hp
    · unfold ptsAt at hp
      rw [sF5 s hs] at hp
      simp only [List.mem_append, List.mem_reverse] at hp
      rcases hp with hp | hp
      · obtain ⟨t, ht, _⟩ := mem_pickedAt.1 hp
        exact (zipIdx_mem_lt ht).1
      · obtain ⟨t, ht, _⟩ := mem_droppedAt.1 hp
        exact (zipIdx_mem_lt ht).1
  have ge5 : ∀ s ∈ [z] ++ F, z ≤ s := by
    intro s hs
    rcases List.mem_append.1 hs with hs | hs
    · rw [List.mem_singleton] at hs; omega
    · have := fresh4 s hs; omega
  have ab5 : Above z h.core.nPt r h4 h5 := p5.above z h.core.nPt r ge5 (by omega)
  have ab6 : Above z h.core.nPt r h5 h6 := t6.above z h.core.nPt r ge5 ptsF
  have ab8 : Above z h.core.nPt r h6 h8 := by
    refine i68.above z h.core.nPt r ?_ ?_ le_rfl
    · intro s hs
      rcases (hmem8 s).1 hs with rfl | hs | rfl
      · exact le_rfl
      · have := fresh4 s hs; omega
      · omega
    · intro s hs p hp
      have pe : ptsAt h6.core s = ptsAt h5.core s := by
        unfold ptsAt; rw [t6.stop s]; split <;> rfl
      rw [pe] at hp
      rcases (hmem8 s).1 hs with rfl | hs | rfl
      · exact ptsF z (by simp) p hp
      · exact ptsF s (by simp [hs]) p hp
      · unfold ptsAt at hp; rw [sw5] at hp; simp at hp
  have ab48 : Above z h.core.nPt r h h8 :=
    ab3.trans (((f4.above z h.core.nPt r (by omega)).trans ab5).trans (ab6.trans ab8))
  have n8 : h8.core.nStop = h4.core.nStop := by rw [i68.counts.1, t6.counts.1, p5.stops]
  have n4 : z + 2 ≤ h4.core.nStop := by have := ab4.nStop; omega
  have m4 : h4.core.nRoute = h3.core.nRoute := f4.routes
  have rfe : h8.rfeas r = none := by
    rw [i68.rfeas, t6.rfeas, p5.rfeas, (ab4.route r (by omega)).2, rf3]
  refine ⟨h8, F, ?_, ?_⟩
  · unfold buildRoute
    rw [Py.bind_ok run3, Py.bind_ok first3, Py.bind_ok ((skip lead hlead).trans run4), Py.read_bind, Py.bind_ok run5, Py.bind_ok run6]
    have run68 : Py.forEach ([z] ++ F) (fun s => do let _ ← insertStop r s) h6 = (.ok (), h8) := by
      rw [List.singleton_append, Py.forEach]
      have e : (do let _ ← insertStop r z : M Unit) h6 = (.ok (), h7) := by
        rw [Py.bind_ok run7]; rfl
      rw [Py.bind_ok e, run8]
    rw [Py.bind_ok run68]
    rfl
  · constructor
    · exact ab48
    · rw [i68.counts.2.2, t6.counts.2.2, p5.routes, m4, m3]
    · rw [i68.route, Function.update_self, rt6]; rfl
    · simpa using hnd
    · intro s hs
      rw [n8]
      rcases (hmem8 s).1 (by simpa using hs) with rfl | hs | rfl
      · omega
      · have := fresh4 s hs; omega
      · omega
    · rw [i68.stop z (by omega), sz6]
    · rw [i68.final, sw6]
    · rw [← f4.pos]
      exact List.map_congr_left fun s hs => by rw [stopF s hs]
    · exact link6.congr fun s hs => by rw [i68.stop s (hFw s hs)]
    · intro s hs
      rw [stopF s hs]
      exact ⟨(f4.plain s hs).1, rfl, rfl, rfl⟩
    · rw [i68.counts.2.1, t6.counts.2.1, q5]
    · intro tq htq
      obtain ⟨c1, u, hu, d, hd, c2, c3, c4⟩ := p5.pt tq (by rw [q4]; exact htq)
      have htT : tq.1 ∈ T := by
        have := List.mem_map_of_mem (f := Prod.fst) htq
        rwa [List.zipIdx_map_fst] at this
      have inF : ∀ s ∈ [z] ++ F, (h4.core.stop s).position ∈ ps → s ∈ F := by
        intro s hs hp
        rcases List.mem_append.1 hs with hs | hs
        · rw [List.mem_singleton] at hs; subst hs; rw [sz4] at hp; exact absurd hp hzp
        · exact hs
      have huF : u ∈ F := inF u hu (by rw [c3]; exact hsub _ (tripEnds_origin htT))
      have hdF : d ∈ F := inF d hd (by rw [c4]; exact hsub _ (tripEnds_destination htT))
      refine ⟨?_, u, huF, d, hdF, ?_, ?_, ?_⟩
      · have e6 : h6.pfeas tq.2 = none := by
          rw [t6.pfeas]; split
          · rfl
          · exact c1
        rcases i68.pfeas tq.2 with e | e
        · rw [e, e6]
        · exact e.1
      · rw [i68.pt, t6.pt, c2]
      · rw [stopF u huF]; exact c3
      · rw [stopF d hdF]; exact c4
    · have b6 : ∀ s ∈ h.core.nStop :: F ++ [h.core.nStop + 1], h6.arr s = none ∧ h6.dep s = none ∧ h6.cap s = none := by
        intro s hs
        by_cases hL : s ∈ [z] ++ F
        · have b := t6.blank s hL
          exact ⟨b.arr, b.dep, b.cap⟩
        · have hsw : s = z + 1 := by
            rcases (hmem8 s).1 (by simpa using hs) with e | e | e
            · exact absurd (by simp [e]) hL
            · exact absurd (by simp [e]) hL
            · exact e
          subst hsw
          obtain ⟨e1, e2, e3⟩ := t6.other _ hL
          obtain ⟨c1, c2, c3, _⟩ := ab4.caches (z + 1) (by omega)
          have b3 := (bl3 (z + 1) (.inr rfl)).1
          rw [e1, e2, e3, p5.caches.1, p5.caches.2.1, p5.caches.2.2, c1, c2, c3]
          exact ⟨b3.arr, b3.dep, b3.cap⟩
      intro s hs
      refine ⟨i68.blank s (by simpa using hs) (b6 s hs), ?_⟩
      rw [i68.sfeas, t6.sfeas, p5.sfeas]
      rcases (hmem8 s).1 (by simpa using hs) with rfl | hs | rfl
      · rw [(ab4.caches z (by omega)).2.2.2]; exact (bl3 z (.inl rfl)).2
      · exact f4.verdict s hs
      · rw [(ab4.caches (z + 1) (by omega)).2.2.2]; exact (bl3 (z + 1) (.inr rfl)).2
    · exact rfe

end Jinete
