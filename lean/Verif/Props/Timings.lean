import Verif.Spec.Timing
import Verif.Props.Feasible

/-!
# C132: a rejected route cannot be driven at other times either

`Route.feasible` looks at one schedule only: every visit as early as possible. Whether the visits can be made at all, in the same
order, is a question about all timings.
-/

set_option autoImplicit false

namespace Jinete

variable {E : Env}

/-! ## The earliest timing -/

/-- The schedule is one of the timings. -/
theorem timetable_drives : ∀ (l : List Visit) (t : ℚ) (p : Pos), Drives E t p l (timetable E t p l) := by
  intro l
  induction l with
  | nil => intro t p; trivial
  | cons v l ih =>
    intro t p
    exact ⟨⟨le_rfl, le_max_right _ _, le_trans (le_max_right _ _) (le_max_left _ _), le_rfl⟩, ih _ _⟩

/-- The schedule starts no service before the time asked for. -/
theorem timetable_honours : ∀ (l : List Visit) (t : ℚ) (p : Pos), Honours l (timetable E t p l) := by
  intro l
  induction l with
  | nil => intro t p; trivial
  | cons v l ih =>
    intro t p
    refine ⟨fun q hq => ?_, ih _ _⟩
    show q ≤ max (max (v.request.getD (t + E.metric p v.pos)) (v.earliest E)) (t + E.metric p v.pos)
    rw [show v.request = some q from hq]
    exact le_trans (le_max_left _ _) (le_max_left _ _)

theorem honours_unrequested : ∀ {l : List Visit} {ts : List Tm}, (∀ v ∈ l, v.request = none) → Honours l ts
  | [], _, _ => trivial
  | _ :: _, [], _ => trivial
  | v :: l, _ :: ts, h => ⟨fun q hq => (by rw [h v (by simp)] at hq; cases hq), honours_unrequested fun w hw => h w (by simp [hw])⟩

theorem serve_le {t t' : ℚ} {p : Pos} {v : Visit} {x : Tm} (hv : ∀ q ∈ v.request, q ≤ x.start) (h : t ≤ t') (h1 : t' + E.metric p v.pos ≤ x.arr)
    (h2 : x.arr ≤ x.start) (h3 : v.earliest E ≤ x.start) (h4 : x.start + v.loadTime E ≤ x.dep) :
    (serve E t p v).arr ≤ x.arr ∧ (serve E t p v).start ≤ x.start ∧ (serve E t p v).dep ≤ x.dep := by
  have a : (serve E t p v).arr ≤ x.arr := by show t + E.metric p v.pos ≤ _; linarith
  have b : (serve E t p v).start ≤ x.start := by
    show max (max (v.request.getD (t + E.metric p v.pos)) (v.earliest E)) (t + E.metric p v.pos) ≤ _
    refine max_le (max_le ?_ h3) (by linarith)
    cases e : v.request with
    | none => rw [Option.getD_none]; linarith
    | some q => exact hv q e
  refine ⟨a, b, ?_⟩
  show (serve E t p v).start + v.loadTime E ≤ _
  linarith

theorem drives_length : ∀ {l : List Visit} {t : ℚ} {p : Pos} {ts : List Tm}, Drives E t p l ts → ts.length = l.length
  | [], _, _, [], _ => rfl
  | _ :: _, _, _, _ :: _, h => congrArg (· + 1) (drives_length h.2)

/-- No timing that honours the requested starts is ahead of the schedule anywhere. -/
theorem drives_ge : ∀ {l : List Visit} {t t' : ℚ} {p : Pos} {ts : List Tm}, Honours l ts → t ≤ t' → Drives E t' p l ts →
    ∀ (i : Nat) (x y : Tm), (timetable E t p l)[i]? = some x → ts[i]? = some y → x.arr ≤ y.arr ∧ x.start ≤ y.start ∧ x.dep ≤ y.dep
  | [], _, _, _, [], _, _, _, i, x, y, hx, _ => by simp [timetable] at hx
  | v :: l, t, t', p, z :: ts, hr, h, hd, i, x, y, hx, hy => by
    obtain ⟨⟨h1, h2, h3, h4⟩, hd⟩ := hd
    have hs := serve_le hr.1 h h1 h2 h3 h4
    cases i with
    | zero =>
      simp only [timetable, List.getElem?_cons_zero, Option.some.injEq] at hx hy
      subst hx hy
      exact hs
    | succ i =>
      simp only [timetable, List.getElem?_cons_succ] at hx hy
      exact drives_ge hr.2 hs.2.2 hd i x y hx hy

/-- Where the schedule does not wait, no timing takes less time. -/
theorem drives_gap : ∀ {l : List Visit} {t t' : ℚ} {p : Pos} {ts : List Tm}, Drives E t' p l ts → ∀ (j : Nat),
    (∀ (k : Nat) (z : Tm), k ≤ j → (timetable E t p l)[k]? = some z → z.start = z.arr) →
    ∀ (x y : Tm), (timetable E t p l)[j]? = some x → ts[j]? = some y → x.start - t ≤ y.start - t' ∧ x.dep - t ≤ y.dep - t'
  | [], _, _, _, [], _, j, _, x, y, hx, _ => by simp [timetable] at hx
  | v :: l, t, t', p, z :: ts, hd, j, hn, x, y, hx, hy => by
    obtain ⟨⟨h1, h2, h3, h4⟩, hd⟩ := hd
    have e : (serve E t p v).start = t + E.metric p v.pos := hn 0 _ (Nat.zero_le _) rfl
    have e' : (serve E t p v).dep = (serve E t p v).start + v.loadTime E := rfl
    cases j with
    | zero =>
      simp only [timetable, List.getElem?_cons_zero, Option.some.injEq] at hx hy
      subst hx hy
      constructor <;> linarith
    | succ j =>
      simp only [timetable, List.getElem?_cons_succ] at hx hy
      have := drives_gap hd j (fun k w hk hw => hn (k + 1) w (by omega) (by simpa [timetable] using hw)) x y hx hy
      constructor <;> linarith [this.1, this.2]

/-- The same from a visit on. -/
theorem drives_between : ∀ {l : List Visit} {t t' : ℚ} {p : Pos} {ts : List Tm}, Drives E t' p l ts → ∀ (i j : Nat), i < j →
    (∀ (k : Nat) (z : Tm), i < k → k ≤ j → (timetable E t p l)[k]? = some z → z.start = z.arr) →
    ∀ (x x' y y' : Tm), (timetable E t p l)[i]? = some x → ts[i]? = some x' → (timetable E t p l)[j]? = some y → ts[j]? = some y' →
      y.start - x.dep ≤ y'.start - x'.dep ∧ y.dep - x.dep ≤ y'.dep - x'.dep
  | [], _, _, _, [], _, i, j, _, _, x, _, _, _, hx, _, _, _ => by simp [timetable] at hx
  | v :: l, t, t', p, z :: ts, hd, i, j + 1, hij, hn, x, x', y, y', hx, hx', hy, hy' => by
    cases i with
    | zero =>
      simp only [timetable, List.getElem?_cons_zero, List.getElem?_cons_succ, Option.some.injEq] at hx hx' hy hy'
      subst hx hx'
      exact drives_gap hd.2 j (fun k w hk hw => hn (k + 1) w (by omega) (by omega) (by simpa [timetable] using hw)) y y' hy hy'
    | succ i =>
      simp only [timetable, List.getElem?_cons_succ] at hx hx' hy hy'
      exact drives_between hd.2 i j (by omega) (fun k w hk hk' hw => hn (k + 1) w (by omega) (by omega) (by simpa [timetable] using hw))
        x x' y y' hx hx' hy hy'

/-! ## Feasible timings -/

theorem leQ_mono {b : Bound} {q q' : ℚ} (h : q ≤ q') (hb : b.leQ q' = true) : b.leQ q = true := by
  cases b with
  | inf => rfl
  | fin a => simp only [Bound.leQ, decide_eq_true_eq] at hb ⊢; linarith

theorem leQ_addQ_inf (a q : ℚ) : (Bound.inf.addQ a).leQ q = true := rfl

/-- A feasible schedule is a feasible timing. -/
theorem FeasibleItinerary.timing {veh : Vehicle} {l : List Visit} (h : FeasibleItinerary E veh l) :
    FeasibleTiming E veh l (vehicleTimetable E veh l) :=
  { drives := timetable_drives _ _ _
    startPos := h.vehicle.startPos
    endPos := h.vehicle.endPos
    endTime := h.vehicle.endTime
    duration := h.vehicle.duration
    trips := h.trips }

/-- If the vehicle never waits when it counts, then the schedule is feasible as soon as some timing is. -/
theorem FeasibleTiming.itinerary (hE : EnvOK E) {veh : Vehicle} {l : List Visit} {ts : List Tm} (h : FeasibleTiming E veh l ts)
    (hr : Honours l ts) (hW : WaitsOutside E veh l)
    (ho : ∀ (i j : Nat) (v w : Visit) (t : Nat), l[i]? = some v → l[j]? = some w → t ∈ v.picks → t ∈ w.drops → i < j) :
    FeasibleItinerary E veh l := by
  have hl := drives_length h.drives
  have hl' : (vehicleTimetable E veh l).length = l.length := timetable_length _ _ _
  have ge := drives_ge hr le_rfl h.drives
  have other : ∀ (i : Nat) (x : Tm), (vehicleTimetable E veh l)[i]? = some x → ∃ y, ts[i]? = some y := by
    intro i x hx
    have := (List.getElem?_eq_some_iff.1 hx).1
    exact ⟨_, List.getElem?_eq_getElem (by omega)⟩
  have last : ∀ y ∈ (vehicleTimetable E veh l).getLast?, (vehicleTimetable E veh l)[l.length - 1]? = some y := by
    intro y hy
    rw [List.getLast?_eq_getElem?, hl'] at hy
    exact hy
  have last' : ∀ y, ts[l.length - 1]? = some y → y ∈ ts.getLast? := by
    intro y hy
    rw [List.getLast?_eq_getElem?, hl]
    exact hy
  have head : ∀ x ∈ (vehicleTimetable E veh l).head?, (vehicleTimetable E veh l)[0]? = some x := by
    intro x hx; rw [← List.head?_eq_getElem?]; exact hx
  constructor
  · refine ⟨h.startPos, ?_, h.endPos, ?_, ?_⟩
    · intro x hx
      have hx := head x hx
      cases l with
      | nil => simp [vehicleTimetable, timetable] at hx
      | cons v l =>
        simp only [vehicleTimetable, timetable, List.getElem?_cons_zero, Option.some.injEq] at hx
        subst hx
        have := hE.metric veh.origin.position v.pos
        have eb : (0 : ℚ) ≤ errorBound := by norm_num [errorBound]
        show _ ≤ veh.origin.earliest + E.metric veh.origin.position v.pos
        linarith
    · intro y hy
      have hy := last y hy
      obtain ⟨y', hy'⟩ := other _ _ hy
      exact leQ_mono (ge _ _ _ hy hy').2.2 (h.endTime y' (last' y' hy'))
    · intro x hx y hy
      have hx := head x hx
      have hy := last y hy
      obtain ⟨x', hx'⟩ := other _ _ hx
      obtain ⟨y', hy'⟩ := other _ _ hy
      have hd := h.duration x' (by rw [List.head?_eq_getElem?]; exact hx') y' (last' y' hy')
      by_cases hv : veh.timeout = .inf
      · rw [hv]; exact leQ_addQ_inf _ _
      · refine leQ_mono ?_ hd
        rcases Nat.eq_zero_or_pos (l.length - 1) with e | e
        · rw [e] at hy hy'
          rw [hx] at hy; rw [hx'] at hy'
          cases hy; cases hy'
          linarith
        · exact (drives_between h.drives 0 (l.length - 1) e (fun k z hk _ hz => hW.tour hv k z hk hz) x x' y y' hx hx' hy hy').2
  · intro i j v w x y q q' t hv hw hx hy hq hq' ht ht'
    obtain ⟨x', hx'⟩ := other _ _ hx
    obtain ⟨y', hy'⟩ := other _ _ hy
    have ok := h.trips i j v w x' y' q q' t hv hw hx' hy' hq hq' ht ht'
    have hd : ∀ (i : Nat) (v : Visit) (x : Tm), l[i]? = some v → (vehicleTimetable E veh l)[i]? = some x → v.earliest E ≤ x.start := by
      have : ∀ (l : List Visit) (a : ℚ) (p : Pos) (i : Nat) (v : Visit) (x : Tm), l[i]? = some v → (timetable E a p l)[i]? = some x →
          v.earliest E ≤ x.start := by
        intro l
        induction l with
        | nil => intro a p i v x h; simp at h
        | cons u l ih =>
          intro a p i v x h1 h2
          cases i with
          | zero =>
            simp only [timetable, List.getElem?_cons_zero, Option.some.injEq] at h1 h2
            subst h1 h2
            exact le_trans (le_max_right _ _) (le_max_left _ _)
          | succ i =>
            simp only [timetable, List.getElem?_cons_succ] at h1 h2
            exact ih _ _ i v x h1 h2
      exact fun i v x h1 h2 => this l _ _ i v x h1 h2
    have eb : (0 : ℚ) ≤ errorBound := by norm_num [errorBound]
    refine ⟨?_, leQ_mono (ge _ _ _ hx hx').2.1 ok.pickLatest, ?_, leQ_mono (ge _ _ _ hy hy').2.1 ok.dropLatest, ok.pickLoad, ok.dropLoad, ?_⟩
    · have h1 := hd i v x hv hx
      have h2 : (E.trip t).originEarliest ≤ v.earliest E := le_maxD (List.mem_append_left _ (List.mem_map_of_mem ht))
      linarith
    · have h1 := hd j w y hw hy
      have h2 : (E.trip t).destinationEarliest E.metric ≤ w.earliest E :=
        le_maxD (List.mem_append_right _ (List.mem_map_of_mem (f := fun t => (E.trip t).destinationEarliest E.metric) ht'))
      linarith
    · by_cases hi : (E.trip t).timeout = .inf
      · rw [hi]; exact leQ_addQ_inf _ _
      · refine leQ_mono ?_ ok.ride
        exact (drives_between h.drives i j (ho i j v w t hv hw ht ht')
          (fun k z hk hk' hz => hW.rides i j k v w z t hv hw ht ht' hi hk hk' hz) x x' y y' hx hx' hy hy').1

theorem WellFormed.pick_before {c : Core} {r : Nat} (hw : WellFormed c r) (i j : Nat) (v w : Visit) (t : Nat)
    (hv : (itinerary c r)[i]? = some v) (hw' : (itinerary c r)[j]? = some w) (ht : t ∈ v.picks) (ht' : t ∈ w.drops) : i < j := by
  have gi : ∃ su, (c.route r).stops[i]? = some su ∧ visitOf c su = v := by
    simpa [Jinete.itinerary, List.getElem?_map, Option.map_eq_some_iff] using hv
  have gj : ∃ sd, (c.route r).stops[j]? = some sd ∧ visitOf c sd = w := by
    simpa [Jinete.itinerary, List.getElem?_map, Option.map_eq_some_iff] using hw'
  obtain ⟨su, hi, rfl⟩ := gi
  obtain ⟨sd, hj, rfl⟩ := gj
  obtain ⟨p, _, _, _, hu, hd, hp⟩ := hw.served hi hj ht ht'
  obtain ⟨u, d, pre, mid, suf, e, hu', hd', _, _⟩ := hw.stops_of hp
  rw [hu] at hu'; rw [hd] at hd'
  cases hu'; cases hd'
  have hi' : (c.route r).stops[pre.length]? = some su := by rw [e]; simp
  have hj' : (c.route r).stops[pre.length + 1 + mid.length]? = some sd := by
    have : (c.route r).stops = (pre ++ su :: mid) ++ sd :: suf := by simp [e]
    have el : pre.length + 1 + mid.length = (pre ++ su :: mid).length := by simp; omega
    rw [this, el]
    simp
  have e1 := (List.getElem?_inj (List.getElem?_eq_some_iff.1 hi).1 hw.nodup).1 (hi.trans hi'.symm)
  have e2 := (List.getElem?_inj (List.getElem?_eq_some_iff.1 hj).1 hw.nodup).1 (hj.trans hj'.symm)
  omega

/-! ## C132 -/

/-- The full claim C132: if a route without requested starts is rejected, then there are no times at all at which its vehicle could
make the visits in this order. -/
def RejectionsFinal : Prop :=
  ∀ (E : Env) (h : Heap) (r : Nat), EnvOK E → WellFormed h.core r → CachesAgree E h r → NoVerdicts h r →
    (∀ s ∈ (h.core.route r).stops, (h.core.stop s).start = none) → (routeFeasible E r h).1 = .ok false →
    ¬ ∃ ts, FeasibleTiming E (E.vehicle (h.core.route r).vehicle) (itinerary h.core r) ts

/-- **C132**, the schedule of visits is their earliest timing: in no timing that starts no service before the time asked for is any
visit reached, served or left earlier. Without requested starts this holds for all timings. -/
theorem C132_no_timing_is_earlier {veh : Vehicle} {l : List Visit} {ts : List Tm} (hr : Honours l ts)
    (h : Drives E veh.origin.earliest veh.origin.position l ts) :
    Drives E veh.origin.earliest veh.origin.position l (vehicleTimetable E veh l) ∧ Honours l (vehicleTimetable E veh l) ∧ ts.length = (vehicleTimetable E veh l).length ∧
    ∀ (i : Nat) (x y : Tm), (vehicleTimetable E veh l)[i]? = some x → ts[i]? = some y → x.arr ≤ y.arr ∧ x.start ≤ y.start ∧ x.dep ≤ y.dep :=
  ⟨timetable_drives _ _ _, timetable_honours _ _ _, (drives_length h).trans (drives_length (timetable_drives l _ _)).symm, drives_ge hr le_rfl h⟩

/-- **C132**, acceptance: an accepted route can be driven, at the times of its schedule. -/
theorem C132_accepted_can_be_driven (hE : EnvOK E) (h : Heap) (r : Nat) (hw : WellFormed h.core r) (ha : CachesAgree E h r)
    (hn : NoVerdicts h r) (hf : (routeFeasible E r h).1 = .ok true) :
    FeasibleTiming E (E.vehicle (h.core.route r).vehicle) (itinerary h.core r) (routeTimetable E h.core r) := by
  obtain ⟨b, h', e, hb, _⟩ := C18_feasible_iff_constraints hE h r hw ha hn
  rw [e] at hf
  cases hf
  exact (hb.1 rfl).timing

/-- **C132**, rejection: if the schedule does not wait during rides of limited length, nor after the first stop if the duration of
the tour is limited, then a route is accepted exactly if there are any times, not before the requested starts, at which its visits can
be made in this order. In particular this holds without ride limits and shift limits.
Missing: routes that wait during a limited ride or tour, for which `C132_delay_saves_ride` and `C132_delay_saves_shift` refute
`RejectionsFinal`. -/
theorem C132_rejections_final_partial (hE : EnvOK E) (h : Heap) (r : Nat) (hw : WellFormed h.core r) (ha : CachesAgree E h r)
    (hn : NoVerdicts h r) (hW : WaitsOutside E (E.vehicle (h.core.route r).vehicle) (itinerary h.core r)) :
    ∃ b, (routeFeasible E r h).1 = .ok b ∧
      (b = true ↔ ∃ ts, FeasibleTiming E (E.vehicle (h.core.route r).vehicle) (itinerary h.core r) ts ∧ Honours (itinerary h.core r) ts) := by
  obtain ⟨b, h', e, hb, _⟩ := C18_feasible_iff_constraints hE h r hw ha hn
  exact ⟨b, by rw [e], hb.trans ⟨fun h => ⟨_, h.timing, timetable_honours _ _ _⟩, fun ⟨_, ht, hh⟩ => ht.itinerary hE hh hW hw.pick_before⟩⟩

/-- **C132**, rejection without requested starts: accepted exactly if there are any times at all. -/
theorem C132_rejections_final_unrequested_partial (hE : EnvOK E) (h : Heap) (r : Nat) (hw : WellFormed h.core r)
    (ha : CachesAgree E h r) (hn : NoVerdicts h r) (hq : ∀ s ∈ (h.core.route r).stops, (h.core.stop s).start = none)
    (hW : WaitsOutside E (E.vehicle (h.core.route r).vehicle) (itinerary h.core r)) :
    ∃ b, (routeFeasible E r h).1 = .ok b ∧
      (b = true ↔ ∃ ts, FeasibleTiming E (E.vehicle (h.core.route r).vehicle) (itinerary h.core r) ts) := by
  obtain ⟨b, e, hb⟩ := C132_rejections_final_partial hE h r hw ha hn hW
  refine ⟨b, e, hb.trans ⟨fun ⟨ts, h, _⟩ => ⟨ts, h⟩, fun ⟨ts, h⟩ => ⟨ts, h, honours_unrequested ?_⟩⟩⟩
  intro v hv
  obtain ⟨s, hs, rfl⟩ := List.mem_map.1 hv
  exact hq s hs

/-- Without limits on rides and shifts the condition is met. -/
theorem waitsOutside_unlimited {veh : Vehicle} {l : List Visit} (h1 : ∀ t, (E.trip t).timeout = .inf) (h2 : veh.timeout = .inf) :
    WaitsOutside E veh l :=
  ⟨fun _ _ _ _ _ _ t _ _ _ _ h => absurd (h1 t) h, fun h => absurd h2 h⟩

/-! ## Witnesses -/

instance (veh : Vehicle) (t : Nat) (x y : Tm) (q q' : ℚ) : Decidable (TripOK E veh t x y q q') :=
  decidable_of_iff ((E.trip t).originEarliest ≤ x.start + errorBound ∧
    (((E.trip t).originLatest E.metric).addQ errorBound).leQ x.start = true ∧
    (E.trip t).destinationEarliest E.metric ≤ y.start + errorBound ∧ (((E.trip t).destinationLatest).addQ errorBound).leQ y.start = true ∧
    q ≤ veh.capacity + errorBound ∧ q' ≤ veh.capacity + errorBound ∧ ((E.trip t).timeout.addQ errorBound).leQ (y.start - x.dep) = true)
    ⟨fun ⟨a, b, c, d, e, f, g⟩ => ⟨a, b, c, d, e, f, g⟩, fun ⟨a, b, c, d, e, f, g⟩ => ⟨a, b, c, d, e, f, g⟩⟩

instance drivesDecidable : ∀ (l : List Visit) (ts : List Tm) (t : ℚ) (p : Pos), Decidable (Drives E t p l ts)
  | [], [], _, _ => isTrue trivial
  | v :: l, x :: ts, _, _ => @instDecidableAnd _ _ inferInstance (drivesDecidable l ts x.dep v.pos)
  | [], _ :: _, _, _ => isFalse id
  | _ :: _, [], _, _ => isFalse id

theorem trips_of_zip {veh : Vehicle} {l : List Visit} {ts : List Tm}
    (h : ∀ a ∈ l.zip (ts.zip (loads E 0 l)), ∀ b ∈ l.zip (ts.zip (loads E 0 l)), ∀ t ∈ a.1.picks, t ∈ b.1.drops →
      TripOK E veh t a.2.1 b.2.1 a.2.2 b.2.2) :
    ∀ (i j : Nat) (v w : Visit) (x y : Tm) (q q' : ℚ) (t : Nat), l[i]? = some v → l[j]? = some w → ts[i]? = some x → ts[j]? = some y →
      (loads E 0 l)[i]? = some q → (loads E 0 l)[j]? = some q' → t ∈ v.picks → t ∈ w.drops → TripOK E veh t x y q q' := by
  intro i j v w x y q q' t hv hw hx hy hq hq' ht ht'
  have m : ∀ (i : Nat) (v : Visit) (x : Tm) (q : ℚ), l[i]? = some v → ts[i]? = some x → (loads E 0 l)[i]? = some q →
      (v, x, q) ∈ l.zip (ts.zip (loads E 0 l)) := by
    intro i v x q h1 h2 h3
    refine List.mem_of_getElem? (i := i) ?_
    rw [List.getElem?_zip_eq_some]
    exact ⟨h1, by rw [List.getElem?_zip_eq_some]; exact ⟨h2, h3⟩⟩
  exact h _ (m i v x q hv hx hq) _ (m j w y q' hw hy hq') t ht ht'

/-- The demo problem with rides of at most 10. -/
def hurriedEnv : Env := { demoEnv with trip := fun t => { demoEnv.trip t with timeout := .fin 10 } }

/-- The demo problem with shifts of at most 30. -/
def shiftEnv : Env := { demoEnv with vehicle := fun v => { demoEnv.vehicle v with timeout := .fin 30 } }

/-- The vehicle leaves at 15 and never waits. -/
def laterTimes : List Tm := [⟨0, 15, 15⟩, ⟨17, 17, 18⟩, ⟨20, 20, 20⟩, ⟨22, 22, 24⟩, ⟨26, 26, 26⟩, ⟨34, 34, 34⟩]

theorem hurriedEnv_ok : EnvOK hurriedEnv := ⟨demoEnv_ok.metric, demoEnv_ok.originDuration, demoEnv_ok.destinationDuration, demoEnv_ok.capacity⟩
theorem shiftEnv_ok : EnvOK shiftEnv := ⟨demoEnv_ok.metric, demoEnv_ok.originDuration, demoEnv_ok.destinationDuration, demoEnv_ok.capacity⟩

theorem demo_unrequested : ∀ s ∈ (demoFreshHeap.core.route 2).stops, (demoFreshHeap.core.stop s).start = none := by decide +kernel

theorem hurried_timing : FeasibleTiming hurriedEnv (hurriedEnv.vehicle 0) (itinerary demoFreshHeap.core 2) laterTimes where
  drives := by decide +kernel
  startPos := by decide +kernel
  endPos := by decide +kernel
  endTime := by decide +kernel
  duration := by decide +kernel
  trips := trips_of_zip (by decide +kernel)

theorem shift_timing : FeasibleTiming shiftEnv (shiftEnv.vehicle 0) (itinerary demoFreshHeap.core 2) laterTimes where
  drives := by decide +kernel
  startPos := by decide +kernel
  endPos := by decide +kernel
  endTime := by decide +kernel
  duration := by decide +kernel
  trips := trips_of_zip (by decide +kernel)

theorem demo_driver : (demoFreshHeap.core.route 2).vehicle = 0 := by decide +kernel

/-- `RejectionsFinal` is false: the first passenger is picked up at once and waits on board for the second, for too long; leaving the
depot later would do. -/
theorem C132_delay_saves_ride : ¬ RejectionsFinal := fun h =>
  h hurriedEnv demoFreshHeap 2 hurriedEnv_ok demo_ok.2.1 (agreeB_sound (by decide +kernel)) ⟨rfl, fun _ _ => rfl, fun _ _ _ _ => rfl⟩
    demo_unrequested (by decide +kernel) ⟨laterTimes, by rw [demo_driver]; exact hurried_timing⟩

/-- It is false with a limit on the shift only, too. -/
theorem C132_delay_saves_shift : ¬ RejectionsFinal := fun h =>
  h shiftEnv demoFreshHeap 2 shiftEnv_ok demo_ok.2.1 (agreeB_sound (by decide +kernel)) ⟨rfl, fun _ _ => rfl, fun _ _ _ _ => rfl⟩
    demo_unrequested (by decide +kernel) ⟨laterTimes, by rw [demo_driver]; exact shift_timing⟩

/-- The demo problem with trips that close at 21: rejected, and with the theorem there are no times at all to make the visits. -/
def closingEnv : Env :=
  { demoEnv with trip := fun t => { demoEnv.trip t with destination := { (demoEnv.trip t).destination with latest := .fin 21 } } }

example : ¬ ∃ ts, FeasibleTiming closingEnv (closingEnv.vehicle 0) (itinerary demoFreshHeap.core 2) ts := by
  obtain ⟨b, e, hb⟩ := C132_rejections_final_unrequested_partial (E := closingEnv)
    ⟨demoEnv_ok.metric, demoEnv_ok.originDuration, demoEnv_ok.destinationDuration, demoEnv_ok.capacity⟩ demoFreshHeap 2 demo_ok.2.1
    (agreeB_sound (by decide +kernel)) ⟨rfl, fun _ _ => rfl, fun _ _ _ _ => rfl⟩ demo_unrequested
    (waitsOutside_unlimited (fun t => by simp only [closingEnv, demoEnv]; split <;> rfl) (by simp [closingEnv, demoEnv]))
  have e' : (routeFeasible closingEnv 2 demoFreshHeap).1 = .ok false := by decide +kernel
  rw [e'] at e
  cases e
  rw [demo_driver] at hb
  exact fun h => absurd (hb.2 h) (by decide)

/-- The demo problem with a limit on the ride of the second trip only. -/
def secondLimited : Env :=
  { demoEnv with trip := fun t => { demoEnv.trip t with timeout := if t = 1 then .fin 2 else .inf } }

/-- The condition of C132 is met by a route that waits. -/
theorem secondLimited_waits : WaitsOutside secondLimited (secondLimited.vehicle 0) (itinerary demoFreshHeap.core 2) where
  rides := by
    intro i j k v w x t hv hw ht ht' hl hik hkj hx
    have h1 : t = 1 := by
      by_contra h
      exact hl (if_neg h)
    subst h1
    have hlen : (itinerary demoFreshHeap.core 2).length = 6 := by decide +kernel
    have hi : i < 6 := by rw [← hlen]; exact (List.getElem?_eq_some_iff.1 hv).1
    have hj : j < 6 := by rw [← hlen]; exact (List.getElem?_eq_some_iff.1 hw).1
    have all : ∀ i < 6, ∀ v ∈ (itinerary demoFreshHeap.core 2)[i]?, 1 ∈ v.picks → i = 2 := by decide +kernel
    have times : ∀ k < 6, 2 < k → ∀ x ∈ (vehicleTimetable secondLimited (secondLimited.vehicle 0) (itinerary demoFreshHeap.core 2))[k]?,
        x.start = x.arr := by decide +kernel
    have := all i hi v hv ht
    exact times k (by omega) (by omega) x hx
  tour := fun h => absurd rfl h

/-- The route waits for 15 with the first passenger on board, and is accepted. -/
example : (∃ ts, FeasibleTiming secondLimited (secondLimited.vehicle 0) (itinerary demoFreshHeap.core 2) ts) ∧
    (∃ x ∈ vehicleTimetable secondLimited (secondLimited.vehicle 0) (itinerary demoFreshHeap.core 2), x.start - x.arr = 15) := by
  obtain ⟨b, e, hb⟩ := C132_rejections_final_unrequested_partial (E := secondLimited)
    ⟨demoEnv_ok.metric, demoEnv_ok.originDuration, demoEnv_ok.destinationDuration, demoEnv_ok.capacity⟩ demoFreshHeap 2 demo_ok.2.1
    (agreeB_sound (by decide +kernel)) ⟨rfl, fun _ _ => rfl, fun _ _ _ _ => rfl⟩ demo_unrequested
    (by rw [demo_driver]; exact secondLimited_waits)
  have e' : (routeFeasible secondLimited 2 demoFreshHeap).1 = .ok true := by decide +kernel
  rw [e'] at e
  cases e
  rw [demo_driver] at hb
  exact ⟨hb.1 rfl, by decide +kernel⟩

end Jinete
