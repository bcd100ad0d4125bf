import Verif.Spec.Moving
import Verif.Props.SetOrder
import Verif.Props.Waiting
import Verif.Props.Insertion

/-!
# C136: the same problem elsewhere and later
-/

set_option autoImplicit false

namespace Jinete

variable {E E' : Env} {f : Pos → Pos} {c : ℚ}

/-! ## Effective windows -/

theorem Bound.addQ_addQ (b : Bound) (p q : ℚ) : (b.addQ p).addQ q = b.addQ (p + q) := by
  cases b <;> simp [Bound.addQ, add_assoc]

theorem Bound.min_addQ (a b : Bound) (q : ℚ) : Bound.min (a.addQ q) (b.addQ q) = (Bound.min a b).addQ q := by
  cases a <;> cases b <;> simp [Bound.addQ, Bound.min]
  split <;> rfl

theorem Bound.add_addQ (a b : Bound) (q : ℚ) : (a.addQ q).add b = (a.add b).addQ q := by
  cases a <;> cases b <;> simp [Bound.addQ, Bound.add]
  ring

theorem Bound.leQ_shift (b : Bound) (p x : ℚ) : ((b.addQ c).addQ p).leQ (x + c) = (b.addQ p).leQ x := by
  cases b <;> simp [Bound.addQ, Bound.leQ]
  constructor <;> intro h <;> linarith

namespace Carried

variable (k : Carried f c E E')
include k

theorem directTime (t : Nat) : (E'.trip t).directTime E'.metric = (E.trip t).directTime E.metric := by
  rw [k.trip]
  exact k.metric _ _

theorem originEarliest (t : Nat) : (E'.trip t).originEarliest = (E.trip t).originEarliest + c := by
  rw [k.trip]
  simp only [Trip.originEarliest, Trip.carried, Service.carried]
  cases (E.trip t).timeout with
  | inf => rfl
  | fin q =>
    simp only
    rw [← max_add_add_right]
    congr 1
    ring

theorem destinationEarliest (t : Nat) : (E'.trip t).destinationEarliest E'.metric = (E.trip t).destinationEarliest E.metric + c := by
  have h := k.directTime t
  unfold Trip.destinationEarliest
  rw [h, k.trip, ← max_add_add_right]
  simp only [Trip.carried, Service.carried]
  congr 1
  ring

theorem originLatest (t : Nat) : (E'.trip t).originLatest E'.metric = ((E.trip t).originLatest E.metric).addQ c := by
  have h := k.directTime t
  unfold Trip.originLatest
  rw [h, k.trip, ← Bound.min_addQ]
  simp only [Trip.carried, Service.carried, Bound.subQ, Bound.addQ_addQ]
  congr 2
  ring

theorem destinationLatest (t : Nat) : (E'.trip t).destinationLatest = (E.trip t).destinationLatest.addQ c := by
  unfold Trip.destinationLatest
  rw [k.trip, ← Bound.min_addQ, ← Bound.add_addQ]
  simp only [Trip.carried, Service.carried, Bound.addQ_addQ]
  congr 3
  ring

theorem distance (t : Nat) : (E'.trip t).distance E'.metric = (E.trip t).distance E.metric := k.directTime t

omit k in
theorem destination (v : Vehicle) : (v.carried f c).destination = v.destination.carried f c := by
  unfold Vehicle.destination Vehicle.carried
  cases v.destination? <;> rfl

omit k in
theorem maxD_later (d : ℚ) (l : List ℚ) (hl : l ≠ []) : maxD d (l.map (· + c)) = maxD d l + c := by
  apply le_antisymm
  · rw [maxD_le_iff (by simpa using hl)]
    intro y hy
    obtain ⟨x, hx, rfl⟩ := List.mem_map.1 hy
    linarith [le_maxD (d := d) hx]
  · have := maxD_mem (d := d) hl
    exact le_maxD (List.mem_map.2 ⟨_, this, rfl⟩)

/-! ## Schedules -/

theorem loadTime (v : Visit) : (v.carried f c).loadTime E' = v.loadTime E := by
  simp only [Visit.loadTime, Visit.carried, k.trip, Trip.carried, Service.carried]

theorem earliest (v : Visit) : (v.picks = [] ∧ v.drops = [] ∧ (v.carried f c).earliest E' = 0 ∧ v.earliest E = 0) ∨
    (v.carried f c).earliest E' = v.earliest E + c := by
  by_cases h : v.picks = [] ∧ v.drops = []
  · exact .inl ⟨h.1, h.2, by simp [Visit.earliest, Visit.carried, h.1, h.2], by simp [Visit.earliest, h.1, h.2]⟩
  · refine .inr ?_
    unfold Visit.earliest
    rw [← maxD_later]
    · congr 1
      simp only [Visit.carried, List.map_append, List.map_map]
      congr 1
      · exact List.map_congr_left fun t _ => k.originEarliest t
      · exact List.map_congr_left fun t _ => k.destinationEarliest t
    · simpa using h

theorem serve (hE : EnvOK E) {t : ℚ} (ht : 0 ≤ t) (p : Pos) (v : Visit) :
    Jinete.serve E' (t + c) (f p) (v.carried f c) = (Jinete.serve E t p v).later c := by
  have ha : t + c + E'.metric (f p) (f v.pos) = t + E.metric p v.pos + c := by rw [k.metric]; ring
  have h0 : 0 ≤ t + E.metric p v.pos := add_nonneg ht (hE.metric _ _)
  have hs : max (max ((v.request.map (· + c)).getD (t + E.metric p v.pos + c)) ((v.carried f c).earliest E')) (t + E.metric p v.pos + c) =
      max (max (v.request.getD (t + E.metric p v.pos)) (v.earliest E)) (t + E.metric p v.pos) + c := by
    have hr : (v.request.map (· + c)).getD (t + E.metric p v.pos + c) = v.request.getD (t + E.metric p v.pos) + c := by
      cases v.request <;> rfl
    rw [hr]
    generalize v.request.getD (t + E.metric p v.pos) = q
    rcases k.earliest v with ⟨-, -, h1, h2⟩ | h1
    · rw [h1, h2, max_assoc, max_assoc, max_eq_right h0, max_eq_right (a := (0 : ℚ)) (b := t + E.metric p v.pos + c) (by linarith [k.later]),
        max_add_add_right]
    · rw [h1, max_add_add_right, max_add_add_right]
  unfold Jinete.serve Tm.later
  rw [k.loadTime]
  simp only [Visit.carried] at hs ⊢
  rw [ha, hs]
  simp only [Tm.mk.injEq, true_and]
  ring

theorem timetable (hE : EnvOK E) (l : List Visit) : ∀ {t : ℚ}, 0 ≤ t → ∀ p : Pos,
    Jinete.timetable E' (t + c) (f p) (l.map (Visit.carried f c)) = (Jinete.timetable E t p l).map (Tm.later c) := by
  induction l with
  | nil => intros; rfl
  | cons v l ih =>
    intro t ht p
    simp only [List.map_cons, Jinete.timetable]
    rw [k.serve hE ht p v]
    have hd : 0 ≤ (Jinete.serve E t p v).dep := by
      have h1 : 0 ≤ v.loadTime E := by
        refine maxD_nonneg (le_refl _) fun x hx => ?_
        simp only [List.mem_append, List.mem_map] at hx
        rcases hx with ⟨a, -, rfl⟩ | ⟨a, -, rfl⟩
        · exact hE.originDuration a
        · exact hE.destinationDuration a
      have h2 : t + E.metric p v.pos ≤ (Jinete.serve E t p v).start := le_max_right _ _
      have h3 : (Jinete.serve E t p v).dep = (Jinete.serve E t p v).start + v.loadTime E := rfl
      have h4 := hE.metric p v.pos
      linarith
    rw [← ih hd v.pos]
    rfl

theorem vehicleTimetable (hE : EnvOK E) (v : Nat) (l : List Visit) :
    Jinete.vehicleTimetable E' (E'.vehicle v) (l.map (Visit.carried f c)) = (Jinete.vehicleTimetable E (E.vehicle v) l).map (Tm.later c) := by
  unfold Jinete.vehicleTimetable
  rw [k.vehicle]
  exact k.timetable hE l (k.opening v) _

theorem loads (l : List Visit) : ∀ q : ℚ, Jinete.loads E' q (l.map (Visit.carried f c)) = Jinete.loads E q l := by
  have hcap : ∀ l, tripsCapacity E' l = tripsCapacity E l := by
    intro l
    unfold tripsCapacity
    simp only [k.trip, Trip.carried]
  induction l with
  | nil => intros; rfl
  | cons v l ih => intro q; simp only [List.map_cons, Jinete.loads, ih, hcap, Visit.carried]

/-! ## Constraints -/

theorem tripOK (v t : Nat) (x y : Tm) (q q' : ℚ) :
    TripOK E' (E'.vehicle v) t (x.later c) (y.later c) q q' ↔ TripOK E (E.vehicle v) t x y q q' := by
  have hcap : (E'.vehicle v).capacity = (E.vehicle v).capacity := by rw [k.vehicle]; rfl
  have hride : (E'.trip t).timeout = (E.trip t).timeout := by rw [k.trip]; rfl
  constructor
  · rintro ⟨h1, h2, h3, h4, h5, h6, h7⟩
    rw [k.originEarliest] at h1
    rw [k.originLatest, Tm.later, Bound.leQ_shift] at h2
    rw [k.destinationEarliest] at h3
    rw [k.destinationLatest, Tm.later, Bound.leQ_shift] at h4
    rw [hcap] at h5 h6
    rw [hride] at h7
    simp only [Tm.later] at h1 h3 h7
    refine ⟨by linarith, h2, by linarith, h4, h5, h6, ?_⟩
    rwa [show y.start + c - (x.dep + c) = y.start - x.dep by ring] at h7
  · rintro ⟨h1, h2, h3, h4, h5, h6, h7⟩
    refine ⟨?_, ?_, ?_, ?_, by rw [hcap]; exact h5, by rw [hcap]; exact h6, ?_⟩
    · rw [k.originEarliest]; simp only [Tm.later]; linarith
    · rw [k.originLatest, Tm.later, Bound.leQ_shift]; exact h2
    · rw [k.destinationEarliest]; simp only [Tm.later]; linarith
    · rw [k.destinationLatest, Tm.later, Bound.leQ_shift]; exact h4
    · rw [hride]
      simp only [Tm.later]
      rwa [show y.start + c - (x.dep + c) = y.start - x.dep by ring]

theorem vehicleOK (hE : EnvOK E) (v : Nat) (l : List Visit) :
    VehicleOK E' (E'.vehicle v) (l.map (Visit.carried f c)) ↔ VehicleOK E (E.vehicle v) l := by
  have hT := k.vehicleTimetable hE v l
  have hpos : ∀ (o : Option Visit) (p : Pos), (o.map (Visit.carried f c)).map Visit.pos = some (f p) ↔ o.map Visit.pos = some p := by
    intro o p
    cases o with
    | none => simp
    | some w => simp [Visit.carried, k.inj.eq_iff]
  have ho : (E'.vehicle v).origin = (E.vehicle v).origin.carried f c := by rw [k.vehicle]; rfl
  have hd : (E'.vehicle v).destination = (E.vehicle v).destination.carried f c := by rw [k.vehicle, destination]
  have hto : (E'.vehicle v).timeout = (E.vehicle v).timeout := by rw [k.vehicle]; rfl
  have e1 : (l.map (Visit.carried f c)).head?.map Visit.pos = some (E'.vehicle v).origin.position ↔
      l.head?.map Visit.pos = some (E.vehicle v).origin.position := by
    rw [List.head?_map, ho]; exact hpos _ _
  have e2 : (l.map (Visit.carried f c)).getLast?.map Visit.pos = some (E'.vehicle v).destination.position ↔
      l.getLast?.map Visit.pos = some (E.vehicle v).destination.position := by
    rw [List.getLast?_map, hd]; exact hpos _ _
  have e3 : (∀ x ∈ (Jinete.vehicleTimetable E' (E'.vehicle v) (l.map (Visit.carried f c))).head?, (E'.vehicle v).origin.earliest - errorBound ≤ x.arr) ↔
      ∀ x ∈ (Jinete.vehicleTimetable E (E.vehicle v) l).head?, (E.vehicle v).origin.earliest - errorBound ≤ x.arr := by
    rw [hT, List.head?_map, ho]
    cases (Jinete.vehicleTimetable E (E.vehicle v) l).head? with
    | none => simp
    | some x =>
      simp only [Option.map_some, Option.mem_some_iff, forall_eq', Tm.later, Service.carried]
      constructor <;> intro h <;> linarith
  have e4 : (∀ y ∈ (Jinete.vehicleTimetable E' (E'.vehicle v) (l.map (Visit.carried f c))).getLast?,
        ((E'.vehicle v).destination.latest.addQ errorBound).leQ y.dep = true) ↔
      ∀ y ∈ (Jinete.vehicleTimetable E (E.vehicle v) l).getLast?, ((E.vehicle v).destination.latest.addQ errorBound).leQ y.dep = true := by
    rw [hT, List.getLast?_map, hd]
    cases (Jinete.vehicleTimetable E (E.vehicle v) l).getLast? with
    | none => simp
    | some x => simp only [Option.map_some, Option.mem_some_iff, forall_eq', Tm.later, Service.carried, Bound.leQ_shift]
  have e5 : (∀ x ∈ (Jinete.vehicleTimetable E' (E'.vehicle v) (l.map (Visit.carried f c))).head?,
        ∀ y ∈ (Jinete.vehicleTimetable E' (E'.vehicle v) (l.map (Visit.carried f c))).getLast?,
        ((E'.vehicle v).timeout.addQ errorBound).leQ (y.dep - x.dep) = true) ↔
      ∀ x ∈ (Jinete.vehicleTimetable E (E.vehicle v) l).head?, ∀ y ∈ (Jinete.vehicleTimetable E (E.vehicle v) l).getLast?,
        ((E.vehicle v).timeout.addQ errorBound).leQ (y.dep - x.dep) = true := by
    rw [hT, List.getLast?_map, List.head?_map, hto]
    cases (Jinete.vehicleTimetable E (E.vehicle v) l).head? <;> cases (Jinete.vehicleTimetable E (E.vehicle v) l).getLast? <;>
      simp [Tm.later]
  exact ⟨fun h => ⟨e1.1 h.startPos, e3.1 h.startTime, e2.1 h.endPos, e4.1 h.endTime, e5.1 h.duration⟩,
    fun h => ⟨e1.2 h.startPos, e3.2 h.startTime, e2.2 h.endPos, e4.2 h.endTime, e5.2 h.duration⟩⟩

theorem feasible (hE : EnvOK E) (v : Nat) (l : List Visit) :
    FeasibleItinerary E' (E'.vehicle v) (l.map (Visit.carried f c)) ↔ FeasibleItinerary E (E.vehicle v) l := by
  have hT := k.vehicleTimetable hE v l
  constructor
  · rintro ⟨h1, h2⟩
    refine ⟨(k.vehicleOK hE v l).1 h1, ?_⟩
    intro i j u w x y q q' t hu hw hx hy hq hq' ht ht'
    refine (k.tripOK v t x y q q').1 (h2 i j (u.carried f c) (w.carried f c) (x.later c) (y.later c) q q' t ?_ ?_ ?_ ?_ ?_ ?_ ht ht')
    · simp [hu]
    · simp [hw]
    · rw [hT]; simp [hx]
    · rw [hT]; simp [hy]
    · rw [k.loads]; exact hq
    · rw [k.loads]; exact hq'
  · rintro ⟨h1, h2⟩
    refine ⟨(k.vehicleOK hE v l).2 h1, ?_⟩
    intro i j u w x y q q' t hu hw hx hy hq hq' ht ht'
    rw [List.getElem?_map, Option.map_eq_some_iff] at hu hw
    rw [hT, List.getElem?_map, Option.map_eq_some_iff] at hx hy
    obtain ⟨u, hu, rfl⟩ := hu
    obtain ⟨w, hw, rfl⟩ := hw
    obtain ⟨x, hx, rfl⟩ := hx
    obtain ⟨y, hy, rfl⟩ := hy
    rw [k.loads] at hq hq'
    exact (k.tripOK v t x y q q').2 (h2 i j u w x y q q' t hu hw hx hy hq hq' ht ht')

/-! ## Values -/

omit k in
theorem dropStart_later {l : List (Visit × Tm)} {t : Nat} (h : ∃ x ∈ l, t ∈ x.1.drops) :
    Jinete.dropStart (l.map (Prod.map (Visit.carried f c) (Tm.later c))) t = Jinete.dropStart l t + c := by
  induction l with
  | nil => obtain ⟨x, hx, _⟩ := h; cases hx
  | cons a l ih =>
    by_cases ha : t ∈ a.1.drops
    · simp [Jinete.dropStart, Prod.map, Visit.carried, Tm.later, ha]
    · have hl : ∃ x ∈ l, t ∈ x.1.drops := by
        obtain ⟨x, hx, hxt⟩ := h
        rcases List.mem_cons.1 hx with rfl | hx
        · exact absurd hxt ha
        · exact ⟨x, hx, hxt⟩
      have := ih hl
      simpa [Jinete.dropStart, List.find?_cons, Prod.map, Visit.carried, ha] using this

/-- A ride, `c` later. -/
def _root_.Jinete.Ride.later (c : ℚ) (x : Ride) : Ride := ⟨x.trip, x.pick + c, x.drop + c⟩

theorem rides (hE : EnvOK E) (v : Nat) {l : List Visit} (hl : ItinOK l) :
    Jinete.rides E' (E'.vehicle v) (l.map (Visit.carried f c)) = (Jinete.rides E (E.vehicle v) l).map (Ride.later c) := by
  unfold Jinete.rides ridesOf
  rw [k.vehicleTimetable hE, List.zip_map, List.flatMap_map, List.map_flatMap]
  refine List.flatMap_congr fun x hx => ?_
  rw [List.map_map]
  refine List.map_congr_left fun t ht => ?_
  have hm := (List.of_mem_zip hx).1
  obtain ⟨a, b, e⟩ := List.append_of_mem hm
  obtain ⟨w, hw, hwt⟩ := List.mem_flatMap.1 (hl.pickBefore a x.1 b e t ht)
  have hw : w ∈ l := by rw [e]; simp [hw]
  have hlen : l.length = (Jinete.vehicleTimetable E (E.vehicle v) l).length := (timetable_length ..).symm
  obtain ⟨i, hi, rfl⟩ := List.getElem_of_mem hw
  have hz : (l[i], (Jinete.vehicleTimetable E (E.vehicle v) l)[i]'(hlen ▸ hi)) ∈ l.zip (Jinete.vehicleTimetable E (E.vehicle v) l) := by
    rw [← List.getElem_zip (h := by simp [← hlen, hi])]
    exact List.getElem_mem _
  simp only [Function.comp, Ride.later, Ride.mk.injEq, true_and]
  exact ⟨rfl, dropStart_later ⟨_, hz, hwt⟩⟩

theorem earned (x : Ride) : (x.later c).earned E' = x.earned E := by
  unfold Ride.earned Ride.later
  simp only [k.distance, k.originEarliest, add_left_inj]
  rw [k.trip]
  rfl

theorem routeValue (hE : EnvOK E) (v : Nat) {l : List Visit} (hl : ItinOK l) (o : Objective) :
    Jinete.routeValue E' (E'.vehicle v) (l.map (Visit.carried f c)) o = Jinete.routeValue E (E.vehicle v) l o := by
  have hcap : ∀ t, (E'.trip t).capacity = (E.trip t).capacity := fun t => by rw [k.trip]; rfl
  have hfil : (Jinete.rides E' (E'.vehicle v) (l.map (Visit.carried f c))).filter (fun x => decide ((E'.trip x.trip).capacity ≠ 0)) =
      ((Jinete.rides E (E.vehicle v) l).filter fun x => decide ((E.trip x.trip).capacity ≠ 0)).map (Ride.later c) := by
    rw [k.rides hE v hl, List.filter_map]
    simp only [hcap, Function.comp_def, Ride.later]
    rfl
  cases o with
  | dialARide =>
    have hp : (l.map (Visit.carried f c)).flatMap Visit.picks = l.flatMap Visit.picks := by rw [List.flatMap_map]; rfl
    have ht : ∀ (ps : List Pos) (p : Pos), tourLength E' (f p) (ps.map f) = tourLength E p ps := by
      intro ps
      induction ps with
      | nil => intro p; rfl
      | cons q ps ih => intro p; simp only [List.map_cons, tourLength, k.metric, ih]
    have hm : (l.map (Visit.carried f c)).map Visit.pos = (l.map Visit.pos).map f := by simp [Visit.carried, Function.comp_def]
    have ho : (E'.vehicle v).origin.position = f (E.vehicle v).origin.position := by rw [k.vehicle]; rfl
    simp only [Jinete.routeValue, hp, hm, ho, ht]
  | taxiSharing =>
    simp only [Jinete.routeValue, hfil, List.map_map, Function.comp_def, Ride.later]
    simp only [add_sub_add_right_eq_sub]
  | hashCode =>
    simp only [Jinete.routeValue, hfil, List.map_map, Function.comp_def, k.earned]

theorem criterionValue (hE : EnvOK E) (v : Nat) {l : List Visit} (hl : ItinOK l) (hne : l ≠ []) (o : Criterion) :
    Jinete.criterionValue E' (E'.vehicle v) (l.map (Visit.carried f c)) o =
      Jinete.criterionValue E (E.vehicle v) l o + if o = .earliestLastDeparture then c else 0 := by
  have hT := k.vehicleTimetable hE v l
  have hne' : Jinete.vehicleTimetable E (E.vehicle v) l ≠ [] := by
    intro h
    have := timetable_length (E := E) (E.vehicle v).origin.earliest (E.vehicle v).origin.position l
    rw [show Jinete.timetable E (E.vehicle v).origin.earliest (E.vehicle v).origin.position l = [] from h] at this
    exact hne (List.length_eq_zero_iff.1 this.symm)
  have hlast : ((Jinete.vehicleTimetable E (E.vehicle v) l).map (Tm.later c)).getLast?.elim 0 Tm.dep =
      (Jinete.vehicleTimetable E (E.vehicle v) l).getLast?.elim 0 Tm.dep + c := by
    rw [List.getLast?_map, List.getLast?_eq_some_getLast hne']
    rfl
  have hhead : ((Jinete.vehicleTimetable E (E.vehicle v) l).map (Tm.later c)).head?.elim 0 Tm.dep =
      (Jinete.vehicleTimetable E (E.vehicle v) l).head?.elim 0 Tm.dep + c := by
    rw [List.head?_map, List.head?_eq_some_head hne']
    rfl
  have hdur : tourDuration E' (E'.vehicle v) (l.map (Visit.carried f c)) = tourDuration E (E.vehicle v) l := by
    unfold tourDuration
    rw [hT, hlast, hhead]
    ring
  have hr := k.rides hE v hl
  cases o with
  | earliestLastDeparture => simp only [Jinete.criterionValue, hT, hlast, if_true]
  | shortestAverageDuration =>
    simp only [Jinete.criterionValue, hr, List.map_eq_nil_iff, List.length_map, List.map_map, Function.comp_def, Ride.later,
      add_sub_add_right_eq_sub]
    simp
  | shortestTime => simp [Jinete.criterionValue, hdur]
  | longestTime => simp [Jinete.criterionValue, hdur]
  | longestUtilTime =>
    have hp : (l.map (Visit.carried f c)).flatMap Visit.picks = l.flatMap Visit.picks := by rw [List.flatMap_map]; rfl
    simp [Jinete.criterionValue, hp, k.distance]
  | hashCode => simp [Jinete.criterionValue, hr, Function.comp_def, k.earned]

end Carried

/-- **C136.** The same route, in a problem where every place is moved without changing travel times and every clock is put forward: it
is judged the same, worth the same to every objective, and all its stops report times that are later by exactly that much. Every
criterion but the time of the last departure gives the same score to a feasible route. -/
theorem C136_elsewhere_and_later (k : Carried f c E E') (hE : EnvOK E) (hE' : EnvOK E') (h h' : Heap) (r r' : Nat) (hs : Sound E h r)
    (hs' : Sound E' h' r') (hn : NoVerdicts h r) (hn' : NoVerdicts h' r')
    (hv : (h'.core.route r').vehicle = (h.core.route r).vehicle)
    (hi : itinerary h'.core r' = (itinerary h.core r).map (Visit.carried f c)) :
    (routeFeasible E' r' h').1 = (routeFeasible E r h).1 ∧
    (∀ o : Criterion, o ≠ .earliestLastDeparture → (o.scoring E' r' h').1 = (o.scoring E r h).1) ∧
    (∀ o : Objective, (o.route E' r' h').1 = (o.route E r h).1) ∧
    ∀ i s s' : Nat, (h.core.route r).stops[i]? = some s → (h'.core.route r').stops[i]? = some s' →
      ∃ a d q : ℚ, (arrival E s h).1 = .ok a ∧ (departure E s h).1 = .ok d ∧ (capacity E s h).1 = .ok q ∧
        (arrival E' s' h').1 = .ok (a + c) ∧ (departure E' s' h').1 = .ok (d + c) ∧ (capacity E' s' h').1 = .ok q := by
  have hL := (cachesAgree_iff hs.1.toChained).1 hs.2
  have hL' := (cachesAgree_iff hs'.1.toChained).1 hs'.2
  have ev : effR E' h' r' = effR E h r := by
    obtain ⟨b, _, e, hb, _⟩ := C18_feasible_iff_constraints hE h r hs.1 hs.2 hn
    obtain ⟨b', _, e', hb', _⟩ := C18_feasible_iff_constraints hE' h' r' hs'.1 hs'.2 hn'
    obtain ⟨_, f, _⟩ := routeFeasible_evals hE hs.1 h rfl hL
    obtain ⟨_, f', _⟩ := routeFeasible_evals hE' hs'.1 h' rfl hL'
    have x : effR E h r = b := by simpa using congrArg Prod.fst (f.symm.trans e)
    have x' : effR E' h' r' = b' := by simpa using congrArg Prod.fst (f'.symm.trans e')
    rw [x, x', Bool.eq_iff_iff, hb, hb', hv, hi, k.feasible hE]
  refine ⟨?_, fun o ho => ?_, fun o => ?_, fun i s s' hk hk' => ?_⟩
  · obtain ⟨_, f, _⟩ := routeFeasible_evals hE hs.1 h rfl hL
    obtain ⟨_, f', _⟩ := routeFeasible_evals hE' hs'.1 h' rfl hL'
    rw [f, f']
    simp only [ev]
  · obtain ⟨_, f, _⟩ := hs.1.scoring_evals hE o h rfl hL
    obtain ⟨_, f', _⟩ := hs'.1.scoring_evals hE' o h' rfl hL'
    have hne : itinerary h.core r ≠ [] := by
      obtain ⟨v, l, e, _⟩ := hs.1.first
      rw [e]
      simp
    rw [f, f']
    simp only [scoreOf, ev, hv, hi, k.criterionValue hE _ hs.1.itinOK hne, if_neg ho, add_zero]
  · obtain ⟨_, f, _⟩ := hs.1.routeValue_reads (E := E) o h rfl hL
    obtain ⟨_, f', _⟩ := hs'.1.routeValue_reads (E := E') o h' rfl hL'
    rw [f, f', hv, hi, k.routeValue hE _ hs.1.itinOK]
  · obtain ⟨pre, suf, e, hl⟩ := split_at hk
    obtain ⟨pre', suf', e', hl'⟩ := split_at hk'
    obtain ⟨t1, t3, _⟩ := hs.1.toChained.timetable_idx (E := E) hk
    obtain ⟨t1', t3', _⟩ := hs'.1.toChained.timetable_idx (E := E') hk'
    have et : tmAt E' h'.core s' = (tmAt E h.core s).later c := by
      unfold routeTimetable at t1 t1'
      rw [hi, hv, k.vehicleTimetable hE, List.getElem?_map, t1] at t1'
      exact (Option.some.inj t1').symm
    have el : loadAt E' h'.core s' = loadAt E h.core s := by
      unfold routeLoads at t3 t3'
      rw [hi, k.loads, t3] at t3'
      exact (Option.some.inj t3').symm
    rw [hs.1.toChained.tmAt_eq e, hs'.1.toChained.tmAt_eq e'] at et
    rw [hs.1.toChained.loadAt_eq e, hs'.1.toChained.loadAt_eq e'] at el
    obtain ⟨_, a, _⟩ := hs.1.toChained.arrival_reads e h rfl hL
    obtain ⟨_, a', _⟩ := hs'.1.toChained.arrival_reads e' h' rfl hL'
    obtain ⟨_, d, _⟩ := hs.1.toChained.departure_reads e h rfl hL
    obtain ⟨_, d', _⟩ := hs'.1.toChained.departure_reads e' h' rfl hL'
    obtain ⟨_, q, _⟩ := hs.1.capacity_reads hE e h rfl hL
    obtain ⟨_, q', _⟩ := hs'.1.capacity_reads hE' e' h' rfl hL'
    rw [a, a', d, d', q, q', et, el]
    exact ⟨_, _, _, rfl, rfl, rfl, rfl, rfl, rfl⟩

/-! ## Insertions -/

theorem Carried.withVisits (k : Carried f c E E') (t i j : Nat) (l : List Visit) :
    Jinete.withVisits E' t i j (l.map (Visit.carried f c)) = (Jinete.withVisits E t i j l).map (Visit.carried f c) := by
  simp [Jinete.withVisits, Visit.carried, k.trip, Trip.carried, Service.carried, List.map_take, List.map_drop]

/-- Without a limit on the tour, postponing the departure decides nothing. -/
theorem postponed_feasible_iff (veh : Vehicle) {v u : Visit} (l : List Visit) (hp : v.picks = []) (hd : v.drops = [])
    (hq : veh.timeout = .inf) : FeasibleItinerary E veh (postponed E veh (v :: u :: l)) ↔ FeasibleItinerary E veh (v :: u :: l) := by
  refine ⟨fun hf => ?_, fun hf => postponed_feasible veh l hp hd hf (.inr hq)⟩
  obtain ⟨a, a', b, b', T, e1, e2, h1, h2, h3, -⟩ := postponed_times (E := E) veh (u := u) l hp hd
  have hpost : ∃ v' : Visit, postponed E veh (v :: u :: l) = v' :: u :: l ∧ v'.pos = v.pos := by
    unfold postponed
    split
    · exact ⟨v, rfl, rfl⟩
    · exact ⟨_, rfl, rfl⟩
  obtain ⟨v', ev, v1⟩ := hpost
  have hlast : ∀ y, y ∈ (a :: b :: T).getLast? → ∃ y0, y0 ∈ (a' :: b' :: T).getLast? ∧ y.dep = y0.dep := by
    intro y hy
    cases T with
    | nil => simp at hy; exact ⟨b', by simp, by rw [← hy, h3]⟩
    | cons c T =>
      simp only [List.getLast?_cons_cons] at hy ⊢
      exact ⟨y, hy, rfl⟩
  constructor
  · have hv := hf.vehicle
    refine ⟨?_, ?_, ?_, ?_, ?_⟩
    · have := hv.startPos
      rw [ev] at this
      simpa [v1] using this
    · intro x hx
      rw [e1] at hx
      simp only [List.head?_cons, Option.mem_some_iff] at hx
      rw [← hx, ← h1]
      exact hv.startTime a' (by rw [e2]; simp)
    · have := hv.endPos
      rw [ev] at this
      simpa using this
    · intro y hy
      rw [e1] at hy
      obtain ⟨y0, hy0, e⟩ := hlast y hy
      rw [e]
      exact hv.endTime y0 (by rw [e2]; exact hy0)
    · intro x _ y _
      rw [hq]; rfl
  · intro i j w w' x y q q' t hi hj hx hy hlq hlq' ht ht'
    have key : ∀ (n : Nat) (w : Visit), (v :: u :: l)[n]? = some w → (w.picks ≠ [] ∨ w.drops ≠ []) →
        (postponed E veh (v :: u :: l))[n]? = some w ∧ ∀ x : Tm, (a :: b :: T)[n]? = some x → ∃ x0 : Tm, (a' :: b' :: T)[n]? = some x0 ∧
          x.start = x0.start ∧ x.dep = x0.dep := by
      intro n w hn hne
      rw [ev]
      match n with
      | 0 =>
        simp only [List.getElem?_cons_zero, Option.some.injEq] at hn
        subst hn
        simp [hp, hd] at hne
      | 1 =>
        refine ⟨hn, fun x hx => ⟨b', rfl, ?_⟩⟩
        simp only [List.getElem?_cons_succ, List.getElem?_cons_zero, Option.some.injEq] at hx
        subst hx
        exact ⟨h2.symm, h3.symm⟩
      | n + 2 => exact ⟨hn, fun x hx => ⟨x, hx, rfl, rfl⟩⟩
    rw [e1] at hx hy
    obtain ⟨i1, i2⟩ := key i w hi (.inl (List.ne_nil_of_mem ht))
    obtain ⟨j1, j2⟩ := key j w' hj (.inr (List.ne_nil_of_mem ht'))
    obtain ⟨x0, hx0, xs, xd⟩ := i2 x hx
    obtain ⟨y0, hy0, ys, yd⟩ := j2 y hy
    have hl := loads_duty E _ _ (postponed_duty (E := E) veh (v :: u :: l)) 0
    rw [← hl] at hlq hlq'
    have ok := hf.trips i j w w' x0 y0 q q' t i1 j1 (by rw [e2]; exact hx0) (by rw [e2]; exact hy0) hlq hlq' ht ht'
    exact ⟨by rw [xs]; exact ok.pickEarliest, by rw [xs]; exact ok.pickLatest, by rw [ys]; exact ok.dropEarliest,
      by rw [ys]; exact ok.dropLatest, ok.pickLoad, ok.dropLoad, by rw [ys, xd]; exact ok.ride⟩

theorem Carried.postponed (k : Carried f c E E') (hE : EnvOK E) (hc : c = 0) (v : Nat) (l : List Visit) :
    Jinete.postponed E' (E'.vehicle v) (l.map (Visit.carried f c)) = (Jinete.postponed E (E.vehicle v) l).map (Visit.carried f c) := by
  have hf : firstWait E' (E'.vehicle v) (l.map (Visit.carried f c)) = firstWait E (E.vehicle v) l := by
    unfold firstWait
    rw [k.vehicleTimetable hE]
    match Jinete.vehicleTimetable E (E.vehicle v) l with
    | [] => rfl
    | [_] => rfl
    | _ :: y :: _ => simp [Tm.later]
  unfold Jinete.postponed
  rw [hf]
  split
  · rfl
  · cases l with
    | nil => rfl
    | cons a l => simp [Visit.carried, hc]

/-- The full claim: `InsertionStrategy.compute` accepts an insertion if and only if it accepts the same insertion elsewhere and later. -/
def InsertsAlike : Prop :=
  ∀ (f : Pos → Pos) (c : ℚ) (E E' : Env), Carried f c E E' → EnvOK E → EnvOK E' → ∀ (h h' : Heap) (r r' t i j : Nat), Reach E h → Reach E' h' →
    r < h.core.nRoute → r' < h'.core.nRoute → (h'.core.route r').vehicle = (h.core.route r).vehicle →
    itinerary h'.core r' = (itinerary h.core r).map (Visit.carried f c) → i < j → j < (h.core.route r).stops.length → t ∉ tripsOf h.core r →
    ∀ rs rs' k k', compute E true r [t] i j h = (.ok rs, k) → compute E' true r' [t] i j h' = (.ok rs', k') → rs.length = rs'.length

/-- **C136, insertions.** The claim without maximum ride times, if no clock is put forward or the duration of the tour is not limited.
What is missing: with a limited tour the hour matters (`C136_later_rejected`); ride limits. -/
theorem C136_insertions_partial (k : Carried f c E E') (hE : EnvOK E) (hE' : EnvOK E') (hx : ∀ t, (E.trip t).timeout = .inf) (h h' : Heap)
    (r r' t i j : Nat) (hr : Reach E h) (hr' : Reach E' h') (hn : r < h.core.nRoute) (hn' : r' < h'.core.nRoute)
    (hv : (h'.core.route r').vehicle = (h.core.route r).vehicle)
    (hi : itinerary h'.core r' = (itinerary h.core r).map (Visit.carried f c)) (hij : i < j) (hj : j < (h.core.route r).stops.length)
    (ht : t ∉ tripsOf h.core r) (hlim : c = 0 ∨ (E.vehicle (h.core.route r).vehicle).timeout = .inf) :
    ∃ (q q' : Nat) (b : Bool) (g g' : Heap), compute E true r [t] i j h = (.ok (if b then [q] else []), g) ∧
      compute E' true r' [t] i j h' = (.ok (if b then [q'] else []), g') ∧
      duties g.core q = withTrip E t i j (duties h.core r) ∧ duties g'.core q' = withTrip E' t i j (duties h'.core r') := by
  have hx' : ∀ t, (E'.trip t).timeout = .inf := fun t => by rw [k.trip]; exact hx t
  have hlen : (h'.core.route r').stops.length = (h.core.route r).stops.length := by
    have := congrArg List.length hi
    simpa [itinerary] using this
  have ht' : t ∉ tripsOf h'.core r' := by
    unfold tripsOf
    rw [hi, List.flatMap_map]
    exact ht
  obtain ⟨q, b, g, e, -, -, d, hb, -⟩ := compute_one_exact hE hx true hr hn hij hj ht
  obtain ⟨q', b', g', e', -, -, d', hb', -⟩ := compute_one_exact hE' hx' true hr' hn' hij (by rw [hlen]; exact hj) ht'
  have hbb : b' = b := by
    rw [Bool.eq_iff_iff, hb, hb', hv, hi, k.withVisits]
    rcases hlim with hc | hto
    · rw [k.postponed hE hc, k.feasible hE]
    · obtain ⟨v, u, m, ew, -, hp, hd⟩ := withVisits_first (E := E) ((hr.inv (md := .exact) hE fun _ => hx).ok.wf r hn) t i j
      rw [ew]
      rw [postponed_feasible_iff (E := E) _ m hp hd hto]
      have h2 := postponed_feasible_iff (E := E') (E'.vehicle (h.core.route r).vehicle) (v := v.carried f c) (u := u.carried f c)
        (m.map (Visit.carried f c)) hp hd (by rw [k.vehicle]; exact hto)
      simp only [List.map_cons] at h2 ⊢
      rw [h2]
      exact k.feasible hE _ (v :: u :: m)
  subst hbb
  exact ⟨q, q', b', g, g', by simpa using e, by simpa using e', d, d'⟩

/-- A vehicle at 0 that may be on tour for 45, and a passenger who is ready at 50; everything in the morning, or 100 later. -/
def hourEnv (c : ℚ) : Env where
  metric := manhattan
  trip := fun _ => { origin := { position := [10], earliest := 50 + c }, destination := { position := [20], earliest := c } }
  vehicle := fun _ => { origin := { position := [0], earliest := c }, timeout := .fin 45 }

theorem hourEnv_ok (c : ℚ) : EnvOK (hourEnv c) where
  metric := fun a b => manhattan_nonneg a b
  originDuration := fun _ => le_refl _
  destinationDuration := fun _ => le_refl _
  capacity := fun _ => zero_le_one

theorem hourEnv_carried : Carried id 100 (hourEnv 0) (hourEnv 100) where
  inj := Function.injective_id
  later := by norm_num
  opening := fun _ => le_refl _
  metric := fun _ _ => rfl
  trip := fun _ => by simp [hourEnv, Trip.carried, Service.carried, Bound.addQ]
  vehicle := fun _ => by simp [hourEnv, Vehicle.carried, Service.carried, Bound.addQ]

/-- `InsertsAlike` is false: the wait for the passenger, 40, is taken for the time to leave the depot. In the morning the vehicle leaves
at 40 and is back at 80; 100 later it leaves at 100 all the same, is back at 180, and the insertion is rejected. -/
theorem C136_later_rejected : ¬ InsertsAlike := by
  intro hp
  have e : newRoute (hourEnv 0) 0 Heap.empty = (.ok 0, (newRoute (hourEnv 0) 0 Heap.empty).2) := by rfl
  have e' : newRoute (hourEnv 100) 0 Heap.empty = (.ok 0, (newRoute (hourEnv 100) 0 Heap.empty).2) := by rfl
  have := hp id 100 (hourEnv 0) (hourEnv 100) hourEnv_carried (hourEnv_ok 0) (hourEnv_ok 100) _ _ 0 0 0 0 1 (Reach.newRoute .empty e)
    (Reach.newRoute .empty e') (by decide +kernel) (by decide +kernel) (by decide +kernel) (by decide +kernel) (by decide)
    (by decide +kernel) (by decide +kernel) [1] [] _ _ (eq_of_fst (by decide +kernel)) (eq_of_fst (by decide +kernel))
  exact absurd this (by decide)

/-! ## Examples -/

/-- Seven to the right. -/
def right7 (p : Pos) : Pos := p.map (· + 7)

/-- The demo problem seven to the right and 100 later. -/
def demoEnv7 : Env where
  metric := fun a b => manhattan a b
  trip := fun t => (demoEnv.trip t).carried right7 100
  vehicle := fun v => (demoEnv.vehicle v).carried right7 100

theorem demo_carried : Carried right7 100 demoEnv demoEnv7 where
  inj := List.map_injective_iff.2 (add_left_injective 7)
  later := by norm_num
  opening := fun _ => le_refl _
  metric := by
    intro a b
    change manhattan (a.map (· + 7)) (b.map (· + 7)) = manhattan a b
    simp [manhattan, List.zip_map, Function.comp_def]
  trip := fun _ => rfl
  vehicle := fun _ => rfl

theorem demoEnv7_ok : EnvOK demoEnv7 where
  metric := fun a b => manhattan_nonneg a b
  originDuration := demoEnv_ok.originDuration
  destinationDuration := demoEnv_ok.destinationDuration
  capacity := demoEnv_ok.capacity

/-- The route of `demoBuild` in a problem, before any verdict is memoised. -/
def demoIn (E : Env) : Heap :=
  { ((do
      let r ← newRoute E 0
      let rs ← compute E true r [0] 0 1
      let r1 ← Py.index rs 0
      compute E true r1 [1] 1 2 : M (List Nat)) Heap.empty).2 with
    sfeas := fun _ => none, pfeas := fun _ => none, rfeas := fun _ => none }

/-- The hypotheses of C136 hold for the two trips of the demo and for the same trips elsewhere and later. -/
theorem demo_alike : Sound demoEnv (demoIn demoEnv) 2 ∧ Sound demoEnv7 (demoIn demoEnv7) 2 ∧
    ((demoIn demoEnv7).core.route 2).vehicle = ((demoIn demoEnv).core.route 2).vehicle ∧
    itinerary (demoIn demoEnv7).core 2 = (itinerary (demoIn demoEnv).core 2).map (Visit.carried right7 100) ∧
    (itinerary (demoIn demoEnv).core 2).length = 6 :=
  ⟨⟨wfB_sound (by decide +kernel), agreeB_sound (by decide +kernel)⟩, ⟨wfB_sound (by decide +kernel), agreeB_sound (by decide +kernel)⟩,
    by decide +kernel, by decide +kernel, by decide +kernel⟩

example : (routeFeasible demoEnv7 2 (demoIn demoEnv7)).1 = (routeFeasible demoEnv 2 (demoIn demoEnv)).1 :=
  (C136_elsewhere_and_later demo_carried demoEnv_ok demoEnv7_ok _ _ 2 2 demo_alike.1 demo_alike.2.1 ⟨rfl, fun _ _ => rfl, fun _ _ _ _ => rfl⟩
    ⟨rfl, fun _ _ => rfl, fun _ _ _ _ => rfl⟩ demo_alike.2.2.1 demo_alike.2.2.2.1).1

/-- The second trip, which waits, is inserted in both. -/
example : ∃ (q q' : Nat) (b : Bool) (g g' : Heap),
    compute demoEnv true 0 [1] 0 1 (newRoute demoEnv 0 Heap.empty).2 = (.ok (if b then [q] else []), g) ∧
    compute demoEnv7 true 0 [1] 0 1 (newRoute demoEnv7 0 Heap.empty).2 = (.ok (if b then [q'] else []), g') ∧ b = true := by
  have e : newRoute demoEnv 0 Heap.empty = (.ok 0, (newRoute demoEnv 0 Heap.empty).2) := by rfl
  have e' : newRoute demoEnv7 0 Heap.empty = (.ok 0, (newRoute demoEnv7 0 Heap.empty).2) := by rfl
  obtain ⟨q, q', b, g, g', h1, h2, -⟩ := C136_insertions_partial demo_carried demoEnv_ok demoEnv7_ok
    (by intro t; simp only [demoEnv]; split <;> rfl) _ _ 0 0 1 0 1 (Reach.newRoute .empty e) (Reach.newRoute .empty e')
    (by decide +kernel) (by decide +kernel) (by decide +kernel) (by decide +kernel) (by decide) (by decide +kernel) (by decide +kernel)
    (.inr rfl)
  have h3 : (compute demoEnv true 0 [1] 0 1 (newRoute demoEnv 0 Heap.empty).2).1 = .ok [1] := by decide +kernel
  refine ⟨q, q', b, g, g', h1, h2, ?_⟩
  rw [h1] at h3
  cases b with
  | true => rfl
  | false => simp at h3

end Jinete
