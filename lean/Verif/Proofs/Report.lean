import Verif.Spec.Report
import Verif.Props.Value

/-!
# What the columnar report evaluates
-/

set_option autoImplicit false

namespace Jinete

variable {E : Env} {c : Core} {r : Nat}

/-- The stage of a stop. -/
def stageAt (E : Env) (c : Core) (s : Nat) : Stage :=
  ⟨E.metric (stopPrevPosition E c s) (c.stop s).position, visitOf c s, tmAt E c s, loadAt E c s⟩

theorem stages_chain (hc : Chained c r) : ∀ (suf pre : List Nat), (c.route r).stops = pre ++ suf →
    stages E (pre.getLast?.elim (E.vehicle (c.route r).vehicle).origin.earliest fun s => (tmAt E c s).dep)
      (pre.getLast?.elim (E.vehicle (c.route r).vehicle).origin.position fun s => (c.stop s).position)
      (pre.getLast?.elim 0 (loadAt E c)) (suf.map (visitOf c)) = suf.map (stageAt E c) := by
  intro suf
  induction suf with
  | nil => intros; rfl
  | cons s suf ih =>
    intro pre e
    have h1 := ih (pre ++ [s]) (by simp [e])
    have h2 : (c.stop s).previous = pre.getLast? := hc.linked pre s suf e
    have hv : (c.stop s).vehicle = (c.route r).vehicle := hc.vehicle s (by rw [e]; simp)
    simp only [List.getLast?_append, List.getLast?_singleton, Option.some_or, Option.elim_some] at h1
    have ht : serve E (pre.getLast?.elim (E.vehicle (c.route r).vehicle).origin.earliest fun s => (tmAt E c s).dep)
        (pre.getLast?.elim (E.vehicle (c.route r).vehicle).origin.position fun s => (c.stop s).position) (visitOf c s) = tmAt E c s := by
      rw [hc.tmAt_eq e]
      rcases List.eq_nil_or_concat pre with rfl | ⟨pre', x, rfl⟩
      · simp [tmRev, hv]
      · simp only [List.concat_eq_append, List.getLast?_append, List.getLast?_singleton, Option.some_or, Option.elim_some, List.reverse_append,
          List.reverse_cons, List.reverse_nil, List.nil_append, List.singleton_append, tmRev]
        rw [hc.tmAt_eq (pre := pre') (suf := s :: suf) (by simpa using e)]
    have hl : (pre.getLast?.elim 0 (loadAt E c)) + tripsCapacity E (visitOf c s).picks - tripsCapacity E (visitOf c s).drops = loadAt E c s := by
      rw [hc.loadAt_eq e]
      rcases List.eq_nil_or_concat pre with rfl | ⟨pre', x, rfl⟩
      · simp [loadRev]
      · simp only [List.concat_eq_append, List.getLast?_append, List.getLast?_singleton, Option.some_or, Option.elim_some, List.reverse_append,
          List.reverse_cons, List.reverse_nil, List.nil_append, List.singleton_append, loadRev]
        rw [hc.loadAt_eq (pre := pre') (suf := s :: suf) (by simpa using e)]
    have hp : (pre.getLast?.elim (E.vehicle (c.route r).vehicle).origin.position fun s => (c.stop s).position) = stopPrevPosition E c s := by
      unfold stopPrevPosition
      rw [h2]
      cases pre.getLast? with
      | none => simp [hv]
      | some q => rfl
    simp only [List.map_cons, stages]
    rw [ht, hl]
    rw [List.cons_eq_cons]
    refine ⟨?_, h1⟩
    unfold stageAt
    rw [hp]
    rfl

/-- The stages of a route, stop by stop. -/
theorem Chained.stages_eq (hc : Chained c r) :
    vehicleStages E (E.vehicle (c.route r).vehicle) (itinerary c r) = (c.route r).stops.map (stageAt E c) := by
  have := stages_chain (E := E) hc (c.route r).stops [] rfl
  exact this

theorem transitTime_at (hc : Chained c r) {s : Nat} (hs : s ∈ (c.route r).stops) :
    Reads E c (c.route r).stops (transitTime E s) (stageAt E c s).leg := by
  obtain ⟨pre, suf, e⟩ := List.append_of_mem hs
  have ha := hc.anc e
  have hlen := hc.len e
  have hsub := sub_of_split e
  refine reads_fuel (m := fun n => transitTimeWith E (departureF E n) s) ?_
  have hpd : ∃ v, Reads E c (c.route r).stops (prevDepartureWith E (departureF E (c.nStop + 1)) s) v := by
    generalize pre.reverse = anc at ha hlen hsub
    cases anc with
    | nil =>
      refine ⟨_, prevDepartureWith_reads (fun _ => rfl) ?_⟩
      intro p hp
      rw [show (c.stop s).previous = none from ha] at hp
      cases hp
    | cons p anc =>
      refine ⟨(tmRev E c p anc).dep, prevDepartureWith_reads (fun h0 => by rw [ha.1] at h0; cases h0) ?_⟩
      intro p' hp'
      rw [ha.1] at hp'
      cases hp'
      exact departureF_reads _ p anc ha.2 (fun x hx => hsub x (by simp only [List.mem_cons] at hx ⊢; exact .inr hx)) (by simp only [List.length_cons] at hlen; omega)
  obtain ⟨v, hv⟩ := hpd
  exact transitTimeWith_reads hv

theorem waitingTime_at (hc : Chained c r) {s : Nat} (hs : s ∈ (c.route r).stops) :
    Reads E c (c.route r).stops (waitingTime E s) (stageAt E c s).wait := by
  obtain ⟨pre, suf, e⟩ := List.append_of_mem hs
  simp only [Stage.wait, stageAt]
  rw [hc.tmAt_eq e]
  exact hc.waitingTime_reads e

/-- The walk from a delivery back to its pickup. -/
theorem walkBack_reads (hc : Chained c r) {f : Nat → M ℚ} {g : Nat → ℚ} (hf : ∀ s ∈ (c.route r).stops, Reads E c (c.route r).stops (f s) (g s))
    {u : Nat} : ∀ (mid pre suf : List Nat) (d n : Nat) (acc : ℚ), (c.route r).stops = pre ++ u :: (mid ++ d :: suf) → mid.length + 1 < n →
      Reads E c (c.route r).stops (walkBack f (some u) n (some d) acc) (acc + ((mid ++ [d]).map g).sum) := by
  intro mid
  induction mid using List.reverseRec with
  | nil =>
    intro pre suf d n acc e hn
    obtain ⟨n, rfl⟩ : ∃ m, n = m + 2 := ⟨n - 2, by simp at hn; omega⟩
    have hne : d ≠ u := by
      rintro rfl
      have := hc.nodup
      rw [e] at this
      simp [List.nodup_append] at this
    have hp : (c.stop d).previous = some u := by
      have := hc.linked (pre ++ [u]) d suf (by simp [e])
      simpa using this
    rw [walkBack, if_neg (by simpa using hne)]
    refine (Reads.unwrap rfl).bind ((hf d (by rw [e]; simp)).bind (Reads.read fun h hh => ?_))
    rw [hh, hp, walkBack, if_pos rfl]
    simp only [List.nil_append, List.map_cons, List.map_nil, List.sum_cons, List.sum_nil, add_zero]
    exact Reads.pure _
  | append_singleton mid m ih =>
    intro pre suf d n acc e hn
    obtain ⟨n, rfl⟩ : ∃ k, n = k + 1 := ⟨n - 1, by omega⟩
    have hne : d ≠ u := by
      rintro rfl
      have := hc.nodup
      rw [e] at this
      simp [List.nodup_append] at this
    have hp : (c.stop d).previous = some m := by
      have := hc.linked (pre ++ u :: (mid ++ [m])) d suf (by simp [e])
      simpa [List.getLast?_append, List.getLast?_cons] using this
    rw [walkBack, if_neg (by simpa using hne)]
    refine (Reads.unwrap rfl).bind ((hf d (by rw [e]; simp)).bind (Reads.read fun h hh => ?_))
    rw [hh, hp]
    have := ih pre (d :: suf) m n (acc + g d) (by simp [e]) (by simpa using hn)
    convert this using 1
    simp only [List.map_append, List.map_cons, List.map_nil, List.sum_append, List.sum_cons, List.sum_nil, add_zero]
    ring

theorem stopLatest_eq (c : Core) (s : Nat) : stopLatest E c s = (visitOf c s).latest E := by
  simp [stopLatest, Visit.latest, visitOf, ptTrip, Function.comp_def]

theorem stopIdentifier_eq (ident : Nat → Text) (c : Core) (s : Nat) : stopIdentifier ident c s = (visitOf c s).name ident := by
  simp [stopIdentifier, Visit.name, visitOf, joinWith, Function.comp_def]

theorem WellFormed.stopRow_reads (hE : EnvOK E) (hw : WellFormed c r) (ident : Nat → Text) {s : Nat} (hs : s ∈ (c.route r).stops) :
    ∃ row, Reads E c (c.route r).stops (stopRow E ident s) row ∧ ShowsStop E ident (stageAt E c s) row := by
  refine ⟨⟨stopIdentifier ident c s, (c.stop s).position, stopEarliest E c s, stopLatest E c s, (stageAt E c s).wait, (stageAt E c s).leg,
    stopLoadTime E c s, (tmAt E c s).dep, loadAt E c s⟩, ?_, ?_⟩
  · refine Reads.read fun h hc => ?_
    subst hc
    exact (waitingTime_at hw.toChained hs).bind ((transitTime_at hw.toChained hs).bind ((hw.departure_at hs).bind ((hw.capacity_at hE hs).bind (Reads.pure _))))
  · exact ⟨stopIdentifier_eq ident c s, rfl, stopEarliest_eq E c s, stopLatest_eq c s, rfl, rfl, stopLoadTime_eq E c s, rfl, rfl⟩

theorem WellFormed.tripRow_reads (hw : WellFormed c r) (ident : Nat → Text) {p : Nat} (hp : p ∈ routePlannedTrips c r) :
    ∃ row, Reads E c (c.route r).stops (tripRow E ident p) row ∧ ShowsRide E ident ((c.route r).stops.map (stageAt E c)) (c.pt p).trip row := by
  obtain ⟨u, d, pre, mid, suf, e, hu, hd, hpu, hpd⟩ := hw.stops_of hp
  have hus : u ∈ (c.route r).stops := by rw [e]; simp
  have hds : d ∈ (c.route r).stops := by rw [e]; simp
  have hlen := length_le_nStop hw.nodup hw.alloc
  have hfuel : mid.length + 1 < c.nStop + 1 := by rw [e] at hlen; simp at hlen; omega
  have hdrop : Reads E c (c.route r).stops (deliveryTime E p) (tmAt E c d).start := (ptDelivery_reads hd).bind (hw.starting_at hds)
  have hpick : Reads E c (c.route r).stops (pickupTime E p) (tmAt E c u).dep := (ptPickup_reads hu).bind (hw.departure_at hus)
  have hwait : Reads E c (c.route r).stops (ptWaitingTime E p) (((mid ++ [d]).map fun s => (stageAt E c s).wait).sum) := by
    refine Reads.read fun h hc => ?_
    subst hc
    have := walkBack_reads hw.toChained (fun s hs => waitingTime_at (E := E) hw.toChained hs) mid pre suf d (h.core.nStop + 1) 0 e hfuel
    rw [zero_add] at this
    rw [hu, hd]
    exact this
  have htransit : Reads E c (c.route r).stops (ptTransitTime E p) (((mid ++ [d]).map fun s => (stageAt E c s).leg).sum) := by
    refine Reads.read fun h hc => ?_
    subst hc
    have := walkBack_reads hw.toChained (fun s hs => transitTime_at (E := E) hw.toChained hs) mid pre suf d (h.core.nStop + 1) 0 e hfuel
    rw [zero_add] at this
    rw [hu, hd]
    exact this
  have hload : Reads E c (c.route r).stops (ptLoadTime E p) (stopLoadTime E c d + stopLoadTime E c u) := by
    refine (ptDelivery_reads hd).bind ((ptPickup_reads hu).bind (Reads.read fun h hc => ?_))
    subst hc
    exact Reads.pure _
  refine ⟨⟨ident (c.pt p).trip, (ptTrip E c p).origin.position, (ptTrip E c p).destination.position, (ptTrip E c p).originEarliest,
    (ptTrip E c p).destinationLatest, ((mid ++ [d]).map fun s => (stageAt E c s).wait).sum, ((mid ++ [d]).map fun s => (stageAt E c s).leg).sum,
    stopLoadTime E c d + stopLoadTime E c u, (tmAt E c d).start - (tmAt E c u).dep, (tmAt E c u).dep, (tmAt E c d).start,
    (ptTrip E c p).capacity⟩, ?_, ?_⟩
  · refine Reads.read fun h hc => ?_
    subst hc
    have hdur : Reads E h.core (h.core.route r).stops (ptDuration E p) ((tmAt E h.core d).start - (tmAt E h.core u).dep) :=
      hdrop.bind (hpick.bind (Reads.pure ((tmAt E h.core d).start - (tmAt E h.core u).dep)))
    exact hwait.bind (htransit.bind (hload.bind (hdur.bind (hpick.bind (hdrop.bind (Reads.pure _))))))
  · refine ⟨pre.map (stageAt E c), stageAt E c u, mid.map (stageAt E c), stageAt E c d, suf.map (stageAt E c), by simp [e],
      List.mem_map_of_mem (f := fun p => (c.pt p).trip) hpu, List.mem_map_of_mem (f := fun p => (c.pt p).trip) hpd, ?_⟩
    refine ⟨rfl, rfl, rfl, rfl, rfl, ?_, ?_, ?_, rfl, rfl, rfl, rfl⟩
    · simp [Function.comp_def]
    · simp [Function.comp_def]
    · rw [add_comm]
      simp only [stopLoadTime_eq]
      rfl

theorem reads_each {α β : Type} {L : List Nat} {f : α → M β} {P : α → β → Prop} : ∀ {l : List α},
    (∀ x ∈ l, ∃ y, Reads E c L (f x) y ∧ P x y) → ∃ ys, Reads E c L (Py.mapEach l f) ys ∧ List.Forall₂ P l ys
  | [], _ => ⟨[], Reads.pure _, .nil⟩
  | x :: l, h => by
    obtain ⟨y, hy, py⟩ := h x (by simp)
    obtain ⟨ys, hys, pys⟩ := reads_each (l := l) fun z hz => h z (by simp [hz])
    exact ⟨y :: ys, hy.bind (hys.bind (Reads.pure _)), .cons py pys⟩

theorem WellFormed.routeRows_reads (hE : EnvOK E) (hw : WellFormed c r) (ident vehicleIdent : Nat → Text) :
    ∃ x, Reads E c (c.route r).stops (routeRows E ident vehicleIdent r) x ∧
      ShowsRoute E ident vehicleIdent (c.route r).vehicle (itinerary c r) x := by
  obtain ⟨trips, ht, st⟩ := reads_each (E := E) (c := c) (L := (c.route r).stops) (l := routePlannedTrips c r) (f := tripRow E ident)
    (P := fun p row => ShowsRide E ident ((c.route r).stops.map (stageAt E c)) (c.pt p).trip row) fun p hp => hw.tripRow_reads ident hp
  obtain ⟨stops, hs, ss⟩ := reads_each (E := E) (c := c) (L := (c.route r).stops) (l := (c.route r).stops) (f := stopRow E ident)
    (P := fun s row => ShowsStop E ident (stageAt E c s) row) fun s hs => hw.stopRow_reads hE ident hs
  refine ⟨⟨vehicleIdent (c.route r).vehicle, (E.vehicle (c.route r).vehicle).origin.position, (E.vehicle (c.route r).vehicle).destination.position,
    (E.vehicle (c.route r).vehicle).origin.earliest, (E.vehicle (c.route r).vehicle).origin.latest, (E.vehicle (c.route r).vehicle).capacity,
    trips, stops⟩, ?_, ?_⟩
  · refine Reads.read fun h hc => ?_
    subst hc
    exact ht.bind (hs.bind (Reads.pure _))
  · refine ⟨rfl, rfl, rfl, rfl, rfl, rfl, ?_, ?_⟩
    · rw [hw.stages_eq, picks_eq]
      exact List.forall₂_map_left_iff.2 st
    · rw [hw.stages_eq]
      exact List.forall₂_map_left_iff.2 ss

/-! ## Adding up -/

theorem stages_sum : ∀ (mid : List Stage) (t : ℚ) (p : Pos) (q : ℚ) (l : List Visit) (b : Stage) (suf : List Stage),
    stages E t p q l = mid ++ b :: suf → b.tm.start - t =
      ((mid ++ [b]).map Stage.wait).sum + ((mid ++ [b]).map Stage.leg).sum + (mid.map fun x => x.visit.loadTime E).sum := by
  intro mid
  induction mid with
  | nil =>
    intro t p q l b suf e
    cases l with
    | nil => simp [stages] at e
    | cons v l =>
      simp only [stages, List.nil_append, List.cons.injEq] at e
      obtain ⟨rfl, _⟩ := e
      simp only [List.nil_append, List.map_cons, List.map_nil, List.sum_cons, List.sum_nil, Stage.wait, serve]
      ring
  | cons a mid ih =>
    intro t p q l b suf e
    cases l with
    | nil => simp [stages] at e
    | cons v l =>
      simp only [stages, List.cons_append, List.cons.injEq] at e
      obtain ⟨rfl, e⟩ := e
      have := ih _ _ _ _ _ _ e
      simp only [List.cons_append, List.map_cons, List.sum_cons, Stage.wait]
      have h2 : (serve E t p v).dep = (serve E t p v).start + v.loadTime E := rfl
      have h3 : (serve E t p v).arr = t + E.metric p v.pos := rfl
      linarith

theorem stages_rest : ∀ (pre : List Stage) (t : ℚ) (p : Pos) (q : ℚ) (l : List Visit) (a : Stage) (rest : List Stage),
    stages E t p q l = pre ++ a :: rest → ∃ l', rest = stages E a.tm.dep a.visit.pos a.load l' := by
  intro pre
  induction pre with
  | nil =>
    intro t p q l a rest e
    cases l with
    | nil => simp [stages] at e
    | cons v l =>
      simp only [stages, List.nil_append, List.cons.injEq] at e
      obtain ⟨rfl, rfl⟩ := e
      exact ⟨l, rfl⟩
  | cons x pre ih =>
    intro t p q l a rest e
    cases l with
    | nil => simp [stages] at e
    | cons v l =>
      simp only [stages, List.cons_append, List.cons.injEq] at e
      exact ih _ _ _ _ _ _ e.2

/-- The time on board is the time spent waiting, driving and at the stops in between. -/
theorem ShowsRideBetween.adds_up {ident : Nat → Text} {t : Nat} {a b : Stage} {mid pre suf : List Stage} {row : TripRow}
    (h : ShowsRideBetween E ident t a mid b row) {veh : Vehicle} {l : List Visit} (e : vehicleStages E veh l = pre ++ a :: (mid ++ b :: suf)) :
    row.duration = row.waiting + row.transit + (mid.map fun x => x.visit.loadTime E).sum := by
  obtain ⟨l', hl'⟩ := stages_rest pre _ _ _ _ _ _ e
  rw [h.duration, h.waiting, h.transit]
  exact stages_sum mid _ _ _ l' b suf hl'.symm

theorem stages_timetable : ∀ (t : ℚ) (p : Pos) (q : ℚ) (l : List Visit), (stages E t p q l).map Stage.tm = timetable E t p l ∧
    (stages E t p q l).map Stage.load = loads E q l ∧ (stages E t p q l).map Stage.visit = l := by
  intro t p q l
  induction l generalizing t p q with
  | nil => exact ⟨rfl, rfl, rfl⟩
  | cons v l ih =>
    obtain ⟨h1, h2, h3⟩ := ih (serve E t p v).dep v.pos (q + tripsCapacity E v.picks - tripsCapacity E v.drops)
    simp only [stages, List.map_cons, timetable, loads, h1, h2, h3]
    exact ⟨trivial, trivial, trivial⟩

end Jinete
