import Verif.Props.RouteEdit
import Verif.Props.Surface
import Verif.Proofs.Feasible

/-!
# C18, C19, C20: `Route.feasible`
-/

set_option autoImplicit false

namespace Jinete

variable {E : Env}

/-- No verdict is memoised at the route, its stops or its planned trips. -/
structure NoVerdicts (h : Heap) (r : Nat) : Prop where
  route : h.rfeas r = none
  stops : ∀ s ∈ (h.core.route r).stops, h.sfeas s = none
  trips : ∀ s ∈ (h.core.route r).stops, ∀ p ∈ (h.core.stop s).pickups, h.pfeas p = none

/-! ## C18 -/

/-- **C18.** On a well formed route with agreeing memoised times and no memoised verdict, `feasible`
succeeds and is `True` exactly when the itinerary meets the routing constraints: it starts and ends at the
vehicle's depots, in time, within the vehicle's maximum duration, and every trip is served within its
effective windows, the vehicle's capacity and its maximum ride time. Evaluating it changes no attribute,
and repeating it gives the same answer. -/
theorem C18_feasible_iff_constraints (hE : EnvOK E) (h : Heap) (r : Nat) (hw : WellFormed h.core r)
    (ha : CachesAgree E h r) (hn : NoVerdicts h r) :
    ∃ b h', routeFeasible E r h = (.ok b, h') ∧
      (b = true ↔ FeasibleItinerary E (E.vehicle (h.core.route r).vehicle) (itinerary h.core r)) ∧
      h'.core = h.core ∧ CachesAgree E h' r ∧ routeFeasible E r h' = (.ok b, h') := by
  obtain ⟨h', e, g, hm⟩ := routeFeasible_memo hE hw rfl ((cachesAgree_iff hw.toChained).1 ha)
  refine ⟨_, h', e, ?_, g.core, g.agree hw.toChained ha, ?_⟩
  · have : effR E h r = freshV E h.core r := by
      unfold effR
      rw [hn.route, Option.getD_none]
      refine routeV_fresh hw (fun s hs b hb => by rw [hn.stops s hs] at hb; cases hb) ?_
      intro p hp
      obtain ⟨s, hs, hps⟩ := List.mem_flatMap.1 hp
      exact hn.trips s hs p hps
    rw [this]
    exact freshV_iff hw
  · unfold routeFeasible
    simp [hm]

/-- The demo route without memoised verdicts. -/
def demoFreshHeap : Heap := { demoHeap with sfeas := fun _ => none, pfeas := fun _ => none, rfeas := fun _ => none }

theorem demoEnv_ok : EnvOK demoEnv where
  metric := by
    intro a b
    show 0 ≤ manhattan a b
    exact manhattan_nonneg a b
  originDuration := by intro t; simp only [demoEnv]; split <;> simp
  destinationDuration := by intro t; simp only [demoEnv]; split <;> simp
  capacity := by intro t; simp only [demoEnv]; split <;> simp

example : WellFormed demoFreshHeap.core 2 ∧ CachesAgree demoEnv demoFreshHeap 2 ∧ NoVerdicts demoFreshHeap 2 ∧
    (routeFeasible demoEnv 2 demoFreshHeap).1 = .ok true :=
  ⟨demo_ok.2.1, agreeB_sound (by decide +kernel), ⟨rfl, fun _ _ => rfl, fun _ _ _ _ => rfl⟩, by decide +kernel⟩

/-! ## C19 -/

/-- The full claim C19: evaluate the verdict of a route, postpone a stop, flush the route; the verdict then
describes the new schedule. -/
def FlushMakesFresh (E : Env) : Prop :=
  ∀ (h : Heap) (r s : Nat) (v : ℚ) (b0 b : Bool) (h1 h2 : Heap), WellFormed h.core r → CachesAgree E h r → NoVerdicts h r →
    routeFeasible E r h = (.ok b0, h1) → s ∈ (h.core.route r).stops →
    (setStarting s v >>= fun _ => flushRoute r >>= fun _ => routeFeasible E r) h1 = (.ok b, h2) →
    (b = true ↔ FeasibleItinerary E (E.vehicle (h2.core.route r).vehicle) (itinerary h2.core r))

/-- The demo route with its first pickup postponed to 500 after the verdict was computed, then flushed. -/
def demoStale : Except Err Bool × Heap :=
  (setStarting ((demoHeap.core.route 2).stops.getD 1 0) 500 >>= fun _ => flushRoute 2 >>= fun _ => routeFeasible demoEnv 2)
    (routeFeasible demoEnv 2 demoFreshHeap).2

/-- C19 is false: `Stop.flush` keeps the memoised `Stop.feasible`, so after postponing a pickup to 500
(latest 100) the flushed route still reports `True`. -/
theorem C19_flush_stale : ¬ FlushMakesFresh demoEnv := by
  intro hp
  have := (hp demoFreshHeap 2 ((demoHeap.core.route 2).stops.getD 1 0) 500 true true
    (routeFeasible demoEnv 2 demoFreshHeap).2 demoStale.2 demo_ok.2.1 (agreeB_sound (by decide +kernel))
    ⟨rfl, fun _ _ => rfl, fun _ _ _ _ => rfl⟩ (Prod.ext (by decide +kernel) rfl) (by decide +kernel)
    (Prod.ext (by decide +kernel) rfl)).1 rfl
  have := (this.trips 1 4 ((itinerary demoStale.2.core 2).getD 1 ⟨[], none, [], []⟩)
    ((itinerary demoStale.2.core 2).getD 4 ⟨[], none, [], []⟩)
    ((routeTimetable demoEnv demoStale.2.core 2).getD 1 ⟨0, 0, 0⟩) ((routeTimetable demoEnv demoStale.2.core 2).getD 4 ⟨0, 0, 0⟩)
    ((routeLoads demoEnv demoStale.2.core 2).getD 1 0) ((routeLoads demoEnv demoStale.2.core 2).getD 4 0) 0
    (by decide +kernel) (by decide +kernel) (by decide +kernel) (by decide +kernel) (by decide +kernel) (by decide +kernel)
    (by decide +kernel) (by decide +kernel)).pickLatest
  revert this
  decide +kernel

/-- The constraints at one visit: trips served in time, vehicle not over capacity. -/
structure VisitOK (E : Env) (veh : Vehicle) (v : Visit) (x : Tm) (q : ℚ) : Prop where
  picks : ∀ t ∈ v.picks, (((E.trip t).originLatest E.metric).addQ errorBound).leQ x.start = true
  drops : ∀ t ∈ v.drops, ((E.trip t).destinationLatest.addQ errorBound).leQ x.start = true
  load : q ≤ veh.capacity + errorBound

/-- The memoised verdicts of the stops of a route describe its present schedule. -/
def StopVerdictsFresh (E : Env) (h : Heap) (r : Nat) : Prop :=
  ∀ (k s : Nat) (x : Tm) (q : ℚ) (b : Bool), (h.core.route r).stops[k]? = some s →
    (routeTimetable E h.core r)[k]? = some x → (routeLoads E h.core r)[k]? = some q → h.sfeas s = some b →
    (b = true ↔ VisitOK E (E.vehicle (h.core.route r).vehicle) (visitOf h.core s) x q)

theorem visitOK_iff {c : Core} {r s : Nat} (hc : Chained c r) (hs : s ∈ (c.route r).stops) :
    VisitOK E (E.vehicle (c.route r).vehicle) (visitOf c s) (tmAt E c s) (loadAt E c s) ↔ stopV E c s = true := by
  rw [stopV_iff, leQ_stopLatest, hc.vehicle s hs]
  constructor
  · intro h
    refine ⟨⟨fun p hp => h.picks _ (List.mem_map_of_mem hp), fun p hp => h.drops _ (List.mem_map_of_mem hp)⟩, h.load⟩
  · rintro ⟨⟨h1, h2⟩, h3⟩
    refine ⟨?_, ?_, h3⟩
    · intro t ht
      obtain ⟨p, hp, rfl⟩ := List.mem_map.1 ht
      exact h1 p hp
    · intro t ht
      obtain ⟨p, hp, rfl⟩ := List.mem_map.1 ht
      exact h2 p hp

theorem stopVerdictsFresh_iff {h : Heap} {r : Nat} (hc : Chained h.core r) :
    StopVerdictsFresh E h r ↔ ∀ s ∈ (h.core.route r).stops, ∀ b, h.sfeas s = some b → b = stopV E h.core s := by
  constructor
  · intro hv s hs b hb
    obtain ⟨k, hk⟩ := List.getElem?_of_mem hs
    obtain ⟨h1, h2, _⟩ := hc.timetable_idx (E := E) hk
    have := hv k s _ _ b hk h1 h2 hb
    rw [visitOK_iff hc hs] at this
    exact Bool.eq_iff_iff.2 this
  · intro hv k s x q b hk hx hq hb
    obtain ⟨h1, h2, _⟩ := hc.timetable_idx (E := E) hk
    have e1 := hx.symm.trans h1
    have e2 := hq.symm.trans h2
    simp only [Option.some.injEq] at e1 e2
    subst e1 e2
    rw [visitOK_iff hc (List.mem_of_getElem? hk), hv s (List.mem_of_getElem? hk) b hb]

/-- The heap after `Route.flush`. -/
theorem flushRoute_run (h : Heap) (r : Nat) : ∃ h', flushRoute r h = (.ok (), h') ∧ h'.core = h.core ∧
    h'.sfeas = h.sfeas ∧ h'.rfeas r = none ∧
    (∀ s ∈ (h.core.route r).stops, h'.arr s = none ∧ h'.dep s = none ∧ h'.cap s = none) ∧
    (∀ p ∈ routePlannedTrips h.core r, h'.pfeas p = none) := by
  refine ⟨_, rfl, ?_, ?_, ?_, ?_, ?_⟩
  · simp [foldl_flushPt]
  · simp [foldl_flushPt]
  · simp [foldl_flushPt]
  · intro s hs
    simp [foldl_flushPt, flushStops_arr, flushStops_dep, flushStops_cap, hs]
  · intro p hp
    simp [foldl_flushPt, hp]

/-- **C19 (partial).** After flushing a well formed route, in *any* heap (whatever was memoised),
evaluating `feasible` succeeds; if it says `True`, the vehicle-level constraints and every maximum ride
time hold for the present schedule; and if the memoised stop verdicts describe the present schedule (in
particular if there are none), the answer is exactly feasibility of the present itinerary.
Missing: stale stop verdicts, for which the claim is false. -/
theorem C19_flush_fresh_partial (hE : EnvOK E) (h : Heap) (r : Nat) (hw : WellFormed h.core r) :
    ∃ b h', (flushRoute r >>= fun _ => routeFeasible E r) h = (.ok b, h') ∧ h'.core = h.core ∧
      (b = true → VehicleOK E (E.vehicle (h.core.route r).vehicle) (itinerary h.core r) ∧
        ∀ (i j : Nat) (v w : Visit) (x y : Tm) (t : Nat),
          (itinerary h.core r)[i]? = some v → (itinerary h.core r)[j]? = some w →
          (routeTimetable E h.core r)[i]? = some x → (routeTimetable E h.core r)[j]? = some y →
          t ∈ v.picks → t ∈ w.drops → ((E.trip t).timeout.addQ errorBound).leQ (y.start - x.dep) = true) ∧
      (StopVerdictsFresh E h r →
        (b = true ↔ FeasibleItinerary E (E.vehicle (h.core.route r).vehicle) (itinerary h.core r))) := by
  obtain ⟨h1, e1, hc1, hs1, hr1, hcoh, hp1⟩ := flushRoute_run h r
  have hw1 : WellFormed h1.core r := by rw [hc1]; exact hw
  have hL : ∀ s ∈ (h.core.route r).stops, CohAt E h1 s := fun s hs =>
    cohAt_none (hcoh s hs).1 (hcoh s hs).2.1 (hcoh s hs).2.2
  obtain ⟨h2, e2, g2⟩ := routeFeasible_evals hE hw h1 hc1 hL
  refine ⟨_, h2, by rw [Py.bind_ok e1, e2], by rw [g2.core, hc1], ?_, ?_⟩
  · intro hb
    have hb' : routeV E h1 r = true := by
      simp only [effR, hr1, Option.getD_none] at hb; exact hb
    unfold routeV at hb'
    rw [hc1, Bool.and_eq_true, vehV_iff hw, List.all_eq_true] at hb'
    refine ⟨hb'.1, ?_⟩
    intro i j v w x y t hv hw' hx hy ht ht'
    have gi : ∃ su, (h.core.route r).stops[i]? = some su ∧ visitOf h.core su = v := by
      simpa [itinerary, List.getElem?_map, Option.map_eq_some_iff] using hv
    have gj : ∃ sd, (h.core.route r).stops[j]? = some sd ∧ visitOf h.core sd = w := by
      simpa [itinerary, List.getElem?_map, Option.map_eq_some_iff] using hw'
    obtain ⟨su, hi, rfl⟩ := gi
    obtain ⟨sd, hj, rfl⟩ := gj
    obtain ⟨p, _, _, rfl, q4, q5, q6⟩ := hw.served hi hj ht ht'
    have ex := hx.symm.trans (hw.timetable_idx (E := E) hi).1
    have ey := hy.symm.trans (hw.timetable_idx (E := E) hj).1
    simp only [Option.some.injEq] at ex ey
    subst ex ey
    have := hb'.2 p q6
    unfold effP ptV at this
    rw [hp1 p q6, hc1, q4, q5] at this
    simp only [Option.getD_none, Bool.and_eq_true] at this
    exact this.2
  · intro hf
    rw [stopVerdictsFresh_iff hw.toChained] at hf
    have : effR E h1 r = freshV E h.core r := by
      unfold effR
      rw [hr1, Option.getD_none]
      have := routeV_fresh (E := E) hw1 (by rw [hc1, hs1]; exact hf) (by rw [hc1]; exact hp1)
      rw [this, hc1]
    show effR E h1 r = true ↔ _
    rw [this]
    exact freshV_iff hw

/-- The demo heap (with memoised verdicts from its construction) meets the last hypothesis. -/
example : StopVerdictsFresh demoEnv demoHeap 2 ∧ demoHeap.sfeas ((demoHeap.core.route 2).stops.getD 1 0) = some true := by
  refine ⟨(stopVerdictsFresh_iff demo_ok.2.1.toChained).2 ?_, by decide +kernel⟩
  have : ∀ s ∈ (demoHeap.core.route 2).stops, ∀ b ∈ demoHeap.sfeas s, b = stopV demoEnv demoHeap.core s := by decide +kernel
  exact fun s hs b hb => this s hs b hb

/-! ## C20 -/

/-- The full claim C20: a route reported feasible leaves its depot within the vehicle's origin window. -/
def LeavesInWindow (E : Env) : Prop :=
  ∀ (h : Heap) (r : Nat) (h' : Heap), WellFormed h.core r → CachesAgree E h r → NoVerdicts h r →
    routeFeasible E r h = (.ok true, h') →
    ∀ x ∈ (routeTimetable E h.core r).head?,
      ((E.vehicle (h.core.route r).vehicle).origin.latest.addQ errorBound).leQ x.dep = true

/-- A vehicle that must leave by 5 and a trip that opens at 100. -/
def lateEnv : Env where
  metric := fun a b => manhattan a b
  trip := fun _ => { origin := { position := [2], earliest := 100 }, destination := { position := [8] } }
  vehicle := fun _ => { origin := { position := [0], latest := .fin 5 }, destination? := some { position := [9] }, capacity := 2 }

/-- The route serving the trip, as built by the insertion strategy. -/
def lateHeap : Heap :=
  let h := ((newRoute lateEnv 0 >>= fun r => compute lateEnv true r [0] 0 1) Heap.empty).2
  { h with sfeas := fun _ => none, pfeas := fun _ => none, rfeas := fun _ => none }

/-- C20 is false: `origin_latest` is never looked at; this feasible route leaves its depot at 98. -/
theorem C20_leaves_late : ¬ LeavesInWindow lateEnv := by
  intro hp
  have := hp lateHeap 1 (routeFeasible lateEnv 1 lateHeap).2 (wfB_sound (by decide +kernel)) (agreeB_sound (by decide +kernel))
    ⟨rfl, fun _ _ => rfl, fun _ _ _ _ => rfl⟩ (Prod.ext (by decide +kernel) rfl) ⟨0, 98, 98⟩ (by decide +kernel)
  revert this
  decide +kernel

/-- **C20 (partial).** A route reported feasible leaves its depot no later than the closing time of the
vehicle's *destination*; so the claim holds for every vehicle whose destination closes no later than its
origin, in particular for every vehicle without a separate destination (the default).
Missing: destinations closing later than the origin, for which the claim is false. -/
theorem C20_leaves_in_window_partial (hE : EnvOK E) (h : Heap) (r : Nat) (h' : Heap) (hw : WellFormed h.core r)
    (ha : CachesAgree E h r) (hn : h.rfeas r = none) (hf : routeFeasible E r h = (.ok true, h'))
    (x : Tm) (hx : x ∈ (routeTimetable E h.core r).head?) :
    ((E.vehicle (h.core.route r).vehicle).destination.latest.addQ errorBound).leQ x.dep = true ∧
    ((E.vehicle (h.core.route r).vehicle).destination? = none →
      ((E.vehicle (h.core.route r).vehicle).origin.latest.addQ errorBound).leQ x.dep = true) ∧
    (((E.vehicle (h.core.route r).vehicle).destination.latest.le (E.vehicle (h.core.route r).vehicle).origin.latest) = true →
      ((E.vehicle (h.core.route r).vehicle).origin.latest.addQ errorBound).leQ x.dep = true) := by
  obtain ⟨h2, e2, g2⟩ := routeFeasible_evals hE hw h rfl ((cachesAgree_iff hw.toChained).1 ha)
  rw [e2] at hf
  have hb : effR E h r = true := by
    have := congrArg Prod.fst hf
    simpa using this
  unfold effR routeV at hb
  rw [hn, Option.getD_none, Bool.and_eq_true] at hb
  have hv := hb.1
  obtain ⟨f, l, hfs, hls⟩ := hw.ends
  have hx' : x = tmAt E h.core f := by
    rw [(hw.timetable_head (E := E) hfs).1] at hx
    simpa using hx.symm
  subst hx'
  unfold vehV at hv
  rw [hfs, hls] at hv
  simp only [Bool.and_eq_true, decide_eq_true_eq] at hv
  have hmono : (tmAt E h.core f).dep ≤ (tmAt E h.core l).dep := by
    obtain ⟨rest, hrest⟩ : ∃ rest, (h.core.route r).stops = f :: rest := by
      cases h0 : (h.core.route r).stops with
      | nil => rw [h0] at hfs; simp at hfs
      | cons y rest => rw [h0] at hfs; simp at hfs; subst hfs; exact ⟨rest, rfl⟩
    have hlen := hw.length
    rw [hrest] at hlen hls
    obtain ⟨mid, hmid⟩ : ∃ mid, rest = mid ++ [l] := by
      have hr : rest ≠ [] := by rintro rfl; simp at hlen
      refine ⟨rest.dropLast, ?_⟩
      have : (f :: rest).getLast? = rest.getLast? := by
        cases rest with
        | nil => exact absurd rfl hr
        | cons a b => simp
      rw [this] at hls
      have h1 : rest.getLast hr = l := by
        have := List.getLast?_eq_some_getLast hr
        rw [this] at hls; simpa using hls
      rw [← h1, List.dropLast_append_getLast hr]
    have h1 := hw.dep_le_arr hE (pre := []) (u := f) (mid := mid) (d := l) (suf := []) (by rw [hrest, hmid]; rfl)
    have h2 : (tmAt E h.core l).arr ≤ (tmAt E h.core l).start := start_ge_arr _ _ _
    have h3 : (tmAt E h.core l).start ≤ (tmAt E h.core l).dep := tmRev_start_le_dep hE _ _ _
    linarith
  have hd := Bound.leQ_mono hmono hv.1.2
  refine ⟨hd, ?_, ?_⟩
  · intro hnone
    unfold Vehicle.destination at hd
    rw [hnone] at hd
    exact hd
  · intro hle
    cases hol : (E.vehicle (h.core.route r).vehicle).origin.latest with
    | inf => rfl
    | fin b =>
      rw [hol] at hle
      cases hdl : (E.vehicle (h.core.route r).vehicle).destination.latest with
      | inf => rw [hdl] at hle; simp [Bound.le] at hle
      | fin a =>
        rw [hdl] at hle hd
        simp only [Bound.le, Bound.leQ_fin] at hle
        simp only [Bound.addQ, Bound.leQ_fin] at hd ⊢
        linarith

example : WellFormed demoFreshHeap.core 2 ∧ demoFreshHeap.rfeas 2 = none ∧ (demoEnv.vehicle 0).destination? = none ∧
    (routeFeasible demoEnv 2 demoFreshHeap).1 = .ok true :=
  ⟨demo_ok.2.1, rfl, rfl, by decide +kernel⟩

end Jinete
