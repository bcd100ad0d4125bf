import Verif.Proofs.Feasible
import Verif.Spec.Rounded
import Mathlib.Algebra.Order.Group.Abs
import Mathlib.Algebra.Order.Group.MinMax

/-!
# Rounded times along a route
-/

set_option autoImplicit false

namespace Jinete

/-- The specification with tolerance `ERROR_BOUND` is that of C18. -/
theorem feasibleWithin_iff {E : Env} {veh : Vehicle} {l : List Visit} :
    FeasibleWithin E errorBound veh l ↔ FeasibleItinerary E veh l := by
  constructor
  · intro h
    refine ⟨⟨h.startPos, h.startTime, h.endPos, h.endTime, h.duration⟩, ?_⟩
    intro i j v w x y q q' t a b d e f g k m
    have z := h.trips i j v w x y q q' t a b d e f g k m
    exact ⟨z.1, z.2, z.3, z.4, z.5, z.6, z.7⟩
  · intro h
    refine ⟨h.vehicle.1, h.vehicle.2, h.vehicle.3, h.vehicle.4, h.vehicle.5, ?_⟩
    intro i j v w x y q q' t a b d e f g k m
    have z := h.trips i j v w x y q q' t a b d e f g k m
    exact ⟨z.1, z.2, z.3, z.4, z.5, z.6, z.7⟩

namespace Reckoning

variable {K : Reckoning} {E : Env} {c : Core} {r : Nat}

/-- The recurrence of the times along a chain of predecessors. -/
def tmRev (K : Reckoning) (E : Env) (c : Core) (s : Nat) : List Nat → StopTimes
  | [] => K.serve E c (E.vehicle (c.stop s).vehicle).origin.earliest (E.vehicle (c.stop s).vehicle).origin.position s
  | p :: anc => K.serve E c (tmRev K E c p anc).dep (c.stop p).position s

/-- Times of a stop by the recurrence. -/
def tmAt (K : Reckoning) (E : Env) (c : Core) (s : Nat) : StopTimes := K.tmRev E c s (ancF c c.nStop s)

theorem times_anc {n s : Nat} {anc : List Nat} (ha : Anc c s anc) (hn : anc.length < n) :
    K.times E c n s = .ok (K.tmRev E c s anc) := by
  induction anc generalizing n s with
  | nil =>
    obtain ⟨n, rfl⟩ : ∃ m, n = m + 1 := ⟨n - 1, by omega⟩
    have e : (c.stop s).previous = none := ha
    rw [times, e]; rfl
  | cons p anc ih =>
    obtain ⟨n, rfl⟩ : ∃ m, n = m + 1 := ⟨n - 1, by omega⟩
    rw [times, ha.1]
    simp only
    rw [ih ha.2 (by simpa using hn)]; rfl

theorem ancestors_anc {n s : Nat} {anc : List Nat} (ha : Anc c s anc) (hn : anc.length < n) :
    ancestors c n s = .ok anc := by
  induction anc generalizing n s with
  | nil =>
    obtain ⟨n, rfl⟩ : ∃ m, n = m + 1 := ⟨n - 1, by omega⟩
    have e : (c.stop s).previous = none := ha
    rw [ancestors, e]
  | cons p anc ih =>
    obtain ⟨n, rfl⟩ : ∃ m, n = m + 1 := ⟨n - 1, by omega⟩
    rw [ancestors, ha.1]
    simp only
    rw [ih ha.2 (by simpa using hn)]; rfl

theorem sumCapacity_eq (s : Nat) : sumCapacity E c (c.stop s).pickups = tripsCapacity E (visitOf c s).picks ∧
    sumCapacity E c (c.stop s).deliveries = tripsCapacity E (visitOf c s).drops := by
  simp [sumCapacity, tripsCapacity, visitOf, ptTrip, Function.comp_def]

theorem load_anc {n s : Nat} {anc : List Nat} (ha : Anc c s anc) (hn : anc.length < n)
    (hnn : ∀ x anc', (x :: anc') <:+ (s :: anc) → 0 ≤ loadRev E c x anc') : load E c n s = .ok (loadRev E c s anc) := by
  induction anc generalizing n s with
  | nil =>
    obtain ⟨n, rfl⟩ : ∃ m, n = m + 1 := ⟨n - 1, by omega⟩
    have e : (c.stop s).previous = none := ha
    have h0 := hnn s [] (List.suffix_refl _)
    rw [load, e, (sumCapacity_eq s).1, (sumCapacity_eq s).2]
    simp only [loadRev] at h0 ⊢
    simp only [check, bind, Except.bind]
    rw [if_pos (by simpa using h0)]
  | cons p anc ih =>
    obtain ⟨n, rfl⟩ : ∃ m, n = m + 1 := ⟨n - 1, by omega⟩
    have h0 := hnn s (p :: anc) (List.suffix_refl _)
    rw [load, ha.1, (sumCapacity_eq s).1, (sumCapacity_eq s).2]
    simp only
    rw [ih ha.2 (by simpa using hn) fun x anc' hx => hnn x anc' (hx.trans (List.suffix_cons _ _))]
    simp only [loadRev] at h0 ⊢
    simp only [check, bind, Except.bind]
    rw [if_pos (by simpa using h0)]

section
variable {pre suf : List Nat} {s : Nat}

theorem tmAt_eq (hc : Chained c r) (e : (c.route r).stops = pre ++ s :: suf) :
    K.tmAt E c s = K.tmRev E c s pre.reverse := by
  unfold tmAt; rw [ancF_eq (hc.anc e) (hc.len e)]

theorem timesOf_at (hc : Chained c r) (hs : s ∈ (c.route r).stops) : K.timesOf E c s = .ok (K.tmAt E c s) := by
  obtain ⟨pre, suf, e⟩ := List.append_of_mem hs
  rw [tmAt_eq hc e]
  exact times_anc (hc.anc e) (by have := hc.len e; omega)

theorem load_at (hE : EnvOK E) (hw : WellFormed c r) (hs : s ∈ (c.route r).stops) :
    load E c (c.nStop + 1) s = .ok (loadAt E c s) := by
  obtain ⟨pre, suf, e⟩ := List.append_of_mem hs
  rw [hw.loadAt_eq e]
  refine load_anc (hw.anc e) (by have := hw.len e; omega) ?_
  rintro x anc' ⟨t, ht⟩
  have e2 : pre ++ [s] = (anc'.reverse ++ [x]) ++ t.reverse := by
    have := congrArg List.reverse ht
    simpa using this.symm
  have e3 : (c.route r).stops = anc'.reverse ++ x :: (t.reverse ++ suf) := by
    have : (c.route r).stops = (pre ++ [s]) ++ suf := by simp [e]
    rw [this, e2]; simp
  have := hw.load_nonneg hE e3
  simpa using this

end

/-! ## Order -/

section
variable (hK : K.Sane E)
include hK

omit hK in
theorem round_max {a b : ℚ} (ha : K.round a = a) (hb : K.round b = b) : K.round (max a b) = max a b := by
  rcases max_choice a b with h | h <;> rw [h] <;> assumption

theorem Sane.originEarliest (t : Nat) : K.round (K.originEarliest (E.trip t)) = K.originEarliest (E.trip t) := by
  unfold Reckoning.originEarliest
  split
  · exact round_max (hK.idem _) (hK.origin t)
  · exact hK.origin t

theorem Sane.destinationEarliest (t : Nat) : K.round (K.destinationEarliest (E.trip t)) = K.destinationEarliest (E.trip t) :=
  round_max (hK.idem _) (hK.destination t)

theorem Sane.stopEarliest (s : Nat) : K.round (K.stopEarliest E c s) = K.stopEarliest E c s := by
  unfold Reckoning.stopEarliest
  by_cases h : ((c.stop s).pickups.map fun p => K.originEarliest (ptTrip E c p)) ++
    ((c.stop s).deliveries.map fun p => K.destinationEarliest (ptTrip E c p)) = []
  · rw [h]; exact hK.zero
  · have := maxD_mem (d := 0) h
    rw [List.mem_append, List.mem_map, List.mem_map] at this
    rcases this with ⟨p, _, e⟩ | ⟨p, _, e⟩ <;> rw [← e]
    · exact hK.originEarliest _
    · exact hK.destinationEarliest _

theorem Sane.tolerance : 0 ≤ K.tolerance := by
  have := hK.mono 0 (1 / 1000) (by norm_num)
  rw [hK.zero] at this
  exact this

/-- What is left at a represented time is reached no earlier; service begins no earlier than that and than the opening, and
ends no earlier than it begins. -/
theorem Sane.serve (hE : EnvOK E) {t : ℚ} (ht : K.round t = t) (p : Pos) {s : Nat} (hq : ∀ q ∈ (c.stop s).start, K.round q = q) :
    t ≤ (K.serve E c t p s).arr ∧ (K.serve E c t p s).arr ≤ (K.serve E c t p s).start ∧
      K.stopEarliest E c s ≤ (K.serve E c t p s).start ∧ (K.serve E c t p s).start ≤ (K.serve E c t p s).dep ∧
      K.round (K.serve E c t p s).start = (K.serve E c t p s).start ∧ K.round (K.serve E c t p s).dep = (K.serve E c t p s).dep := by
  have hst : K.round (K.serve E c t p s).start = (K.serve E c t p s).start := by
    refine round_max (round_max ?_ (hK.stopEarliest s)) (hK.idem _)
    cases h : (c.stop s).start with
    | none => exact hK.idem _
    | some q => exact hq q h
  refine ⟨?_, le_max_right _ _, le_trans (le_max_right _ _) (le_max_left _ _), ?_, hst, hK.idem _⟩
  · have := hK.mono t (t + K.dist p (c.stop s).position) (by linarith [hK.dist p (c.stop s).position])
    rw [ht] at this
    exact this
  · have h0 : 0 ≤ stopLoadTime E c s := by rw [stopLoadTime_eq]; exact (visitOf c s).loadTime_nonneg hE
    have := hK.mono _ ((K.serve E c t p s).start + stopLoadTime E c s) (le_add_of_nonneg_right h0)
    rw [hst] at this
    exact this

/-- The same for every stop of a chain. -/
theorem Sane.tmRev (hE : EnvOK E) {s : Nat} {anc : List Nat} (hq : ∀ x ∈ s :: anc, ∀ q ∈ (c.stop x).start, K.round q = q) :
    (K.tmRev E c s anc).arr ≤ (K.tmRev E c s anc).start ∧ K.stopEarliest E c s ≤ (K.tmRev E c s anc).start ∧
      (K.tmRev E c s anc).start ≤ (K.tmRev E c s anc).dep ∧ K.round (K.tmRev E c s anc).start = (K.tmRev E c s anc).start ∧
      K.round (K.tmRev E c s anc).dep = (K.tmRev E c s anc).dep ∧
      ((E.vehicle (c.stop s).vehicle).origin.earliest ≤ (K.tmRev E c s anc).arr ∨ anc ≠ []) ∧
      ∀ p anc', anc = p :: anc' → (K.tmRev E c p anc').dep ≤ (K.tmRev E c s anc).arr := by
  induction anc generalizing s with
  | nil =>
    obtain ⟨h1, h2, h3, h4, h5, h6⟩ := hK.serve hE (c := c) (hK.vehicle (c.stop s).vehicle)
      (E.vehicle (c.stop s).vehicle).origin.position (hq s (by simp))
    exact ⟨h2, h3, h4, h5, h6, .inl h1, fun _ _ h => by cases h⟩
  | cons p anc ih =>
    obtain ⟨_, _, _, _, g, _⟩ := ih (s := p) fun x hx => hq x (by simp only [List.mem_cons] at hx ⊢; tauto)
    obtain ⟨h1, h2, h3, h4, h5, h6⟩ := hK.serve hE (c := c) g (c.stop p).position (hq s (by simp))
    refine ⟨h2, h3, h4, h5, h6, .inr (by simp), ?_⟩
    intro p' anc' e
    cases e
    exact h1

end

/-- A stop is left before any later stop is reached. -/
theorem Sane.dep_le_arr (hK : K.Sane E) (hE : EnvOK E) (hc : Chained c r) (hq : K.Requests c r) {pre mid suf : List Nat} {u d : Nat}
    (e : (c.route r).stops = pre ++ u :: (mid ++ d :: suf)) : (K.tmAt E c u).dep ≤ (K.tmAt E c d).arr := by
  have hq' : ∀ {a b : List Nat} {x : Nat}, (c.route r).stops = a ++ x :: b →
      ∀ y ∈ x :: a.reverse, ∀ q ∈ (c.stop y).start, K.round q = q := by
    intro a b x ex y hy
    refine hq y ?_
    rw [ex]; simp only [List.mem_cons, List.mem_reverse, List.mem_append] at hy ⊢; tauto
  induction mid using List.reverseRec generalizing d suf with
  | nil =>
    have e1 : (c.route r).stops = (pre ++ [u]) ++ d :: suf := by simp [e]
    rw [tmAt_eq hc e, tmAt_eq hc e1]
    exact (hK.tmRev hE (hq' e1)).2.2.2.2.2.2 u pre.reverse (by simp)
  | append_singleton mid m ih =>
    have e1 : (c.route r).stops = pre ++ u :: (mid ++ m :: (d :: suf)) := by simp [e]
    have h1 := ih e1
    have e2 : (c.route r).stops = (pre ++ u :: mid) ++ m :: d :: suf := by simp [e]
    have e3 : (c.route r).stops = (pre ++ u :: mid ++ [m]) ++ d :: suf := by simp [e]
    have h2 : (K.tmAt E c m).dep ≤ (K.tmAt E c d).arr := by
      rw [tmAt_eq hc e2, tmAt_eq hc e3]
      exact (hK.tmRev hE (hq' e3)).2.2.2.2.2.2 m (pre ++ u :: mid).reverse (by simp)
    have h3 := hK.tmRev hE (hq' e2)
    rw [← tmAt_eq hc e2] at h3
    linarith [h3.1, h3.2.2.1]

/-- Order of the times of one stop of a route. -/
theorem Sane.at (hK : K.Sane E) (hE : EnvOK E) (hc : Chained c r) (hq : K.Requests c r) {s : Nat} (hs : s ∈ (c.route r).stops) :
    (K.tmAt E c s).arr ≤ (K.tmAt E c s).start ∧ K.stopEarliest E c s ≤ (K.tmAt E c s).start ∧
      (K.tmAt E c s).start ≤ (K.tmAt E c s).dep ∧ K.round (K.tmAt E c s).start = (K.tmAt E c s).start := by
  obtain ⟨pre, suf, e⟩ := List.append_of_mem hs
  have := hK.tmRev hE (c := c) (s := s) (anc := pre.reverse) fun y hy => hq y (by
    rw [e]; simp only [List.mem_cons, List.mem_reverse, List.mem_append] at hy ⊢; tauto)
  rw [← tmAt_eq hc e] at this
  exact ⟨this.1, this.2.1, this.2.2.1, this.2.2.2.1⟩

/-- The first stop is reached no earlier than the vehicle may start. -/
theorem Sane.first (hK : K.Sane E) (hE : EnvOK E) (hw : WellFormed c r) (hq : K.Requests c r) {f : Nat}
    (hf : (c.route r).stops.head? = some f) : (E.vehicle (c.route r).vehicle).origin.earliest ≤ (K.tmAt E c f).arr := by
  obtain ⟨suf, e⟩ : ∃ suf, (c.route r).stops = [] ++ f :: suf := by
    cases h : (c.route r).stops with
    | nil => rw [h] at hf; cases hf
    | cons a l => rw [h] at hf; cases hf; exact ⟨l, rfl⟩
  have hfs : f ∈ (c.route r).stops := by rw [e]; simp
  rw [tmAt_eq hw.toChained e, ← hw.vehicle f hfs]
  have := (hK.tmRev hE (c := c) (s := f) (anc := []) fun y hy => hq y (by
    rw [e]; simp only [List.mem_cons, List.not_mem_nil, or_false] at hy; simp [hy])).2.2.2.2.2.1
  simpa using this

/-! ## The verdict -/

/-- The verdict of a stop, as a formula. -/
def stopV (K : Reckoning) (E : Env) (c : Core) (s : Nat) : Bool :=
  (K.bound ((K.stopLatest E c s).addQ K.tolerance)).leQ (K.tmAt E c s).start &&
  decide (loadAt E c s ≤ K.round ((E.vehicle (c.stop s).vehicle).capacity + K.tolerance))

/-- The verdict of a planned trip between two stops, as a formula. -/
def tripV (K : Reckoning) (E : Env) (c : Core) (p u d : Nat) : Bool :=
  K.stopV E c u && K.stopV E c d &&
  (K.bound ((ptTrip E c p).timeout.addQ K.tolerance)).leQ (K.round ((K.tmAt E c d).start - (K.tmAt E c u).dep))

/-- The verdict of a planned trip, as a formula. -/
def ptV (K : Reckoning) (E : Env) (c : Core) (p : Nat) : Bool :=
  match (c.pt p).pickup, (c.pt p).delivery with
  | some u, some d => K.tripV E c p u d
  | _, _ => false

/-- The verdict of the vehicle between the first and the last stop, as a formula. -/
def vehV (K : Reckoning) (E : Env) (c : Core) (r f l : Nat) : Bool :=
  decide ((c.stop f).position = (E.vehicle (c.route r).vehicle).origin.position) &&
  (decide ((c.stop l).position = (E.vehicle (c.route r).vehicle).destination.position) &&
  ((K.bound ((E.vehicle (c.route r).vehicle).destination.latest.addQ K.tolerance)).leQ (K.tmAt E c l).dep &&
  (K.bound ((E.vehicle (c.route r).vehicle).timeout.addQ K.tolerance)).leQ
    (K.round ((K.tmAt E c l).dep - (K.tmAt E c f).dep))))

section
variable (hK : K.Sane E) (hE : EnvOK E) (hw : WellFormed c r) (hq : K.Requests c r)
include hK hE hw hq

theorem stopFeasible_eq {s : Nat} (hs : s ∈ (c.route r).stops) : K.stopFeasible E c s = .ok (K.stopV E c s) := by
  obtain ⟨_, h2, _, h4⟩ := hK.at hE hw.toChained hq hs
  have h1 : K.stopEarliest E c s ≤ K.round ((K.tmAt E c s).start + K.tolerance) := by
    have := hK.mono (K.tmAt E c s).start ((K.tmAt E c s).start + K.tolerance) (by linarith [hK.tolerance])
    rw [h4] at this
    exact le_trans h2 this
  unfold stopFeasible stopV
  rw [timesOf_at hw.toChained hs]
  simp only [bind, Except.bind, h1, not_true_eq_false, if_false]
  rw [load_at hE hw hs]
  simp only
  by_cases h3 : (K.bound ((K.stopLatest E c s).addQ K.tolerance)).leQ (K.tmAt E c s).start = true
  · by_cases h5 : loadAt E c s ≤ K.round ((E.vehicle (c.stop s).vehicle).capacity + K.tolerance) <;> simp [h3, h5]
  · simp [h3]

theorem tripFeasible_eq {p : Nat} (hp : p ∈ routePlannedTrips c r) : K.tripFeasible E c p = .ok (K.ptV E c p) := by
  obtain ⟨u, d, pre, mid, suf, e, hu, hd, _, _⟩ := hw.stops_of hp
  have hus : u ∈ (c.route r).stops := by rw [e]; simp
  have hds : d ∈ (c.route r).stops := by rw [e]; simp
  have e' : (c.route r).stops = (pre ++ u :: mid) ++ d :: suf := by simp [e]
  have ho : (K.tmAt E c u).dep ≤ (K.tmAt E c d).start :=
    le_trans (hK.dep_le_arr hE hw.toChained hq e) (hK.at hE hw.toChained hq hds).1
  unfold tripFeasible ptV
  rw [hu, hd]
  simp only [present, check, bind, Except.bind]
  rw [ancestors_anc (hw.anc e') (by have := hw.len e'; omega)]
  simp only
  rw [if_pos (by simp), timesOf_at hw.toChained hus, timesOf_at hw.toChained hds]
  simp only
  rw [if_pos (by simpa using ho), stopFeasible_eq hK hE hw hq hus, stopFeasible_eq hK hE hw hq hds]
  unfold tripV
  cases K.stopV E c u <;> cases K.stopV E c d <;> simp
  by_cases h : (K.bound ((ptTrip E c p).timeout.addQ K.tolerance)).leQ
    (K.round ((K.tmAt E c d).start - (K.tmAt E c u).dep)) = true <;> simp [h]

theorem allFeasible_eq (l : List Nat) (hl : ∀ p ∈ l, p ∈ routePlannedTrips c r) (b : Bool) :
    K.allFeasible E c l b = .ok (b && l.all (K.ptV E c)) := by
  induction l generalizing b with
  | nil => simp [allFeasible]
  | cons p l ih =>
    rw [allFeasible, tripFeasible_eq hK hE hw hq (hl p (by simp))]
    simp only [bind, Except.bind]
    rw [ih fun x hx => hl x (by simp [hx])]
    simp [Bool.and_assoc]

theorem routeFeasible_eq {f l : Nat} (hf : (c.route r).stops.head? = some f) (hl : (c.route r).stops.getLast? = some l) :
    K.routeFeasible E c r = .ok (K.vehV E c r f l && (routePlannedTrips c r).all (K.ptV E c)) := by
  have hfs : f ∈ (c.route r).stops := List.mem_of_head? hf
  have hls : l ∈ (c.route r).stops := List.mem_of_getLast? hl
  have h1 : K.round ((E.vehicle (c.route r).vehicle).origin.earliest - K.tolerance) ≤ (K.tmAt E c f).arr := by
    have := hK.mono ((E.vehicle (c.route r).vehicle).origin.earliest - K.tolerance) _ (sub_le_self _ hK.tolerance)
    rw [hK.vehicle] at this
    exact le_trans this (hK.first hE hw hq hf)
  unfold routeFeasible vehV
  rw [hf, hl]
  simp only [element, bind, Except.bind]
  rw [timesOf_at hw.toChained hfs, timesOf_at hw.toChained hls, allFeasible_eq hK hE hw hq _ (fun _ h => h)]
  simp only [h1, not_true_eq_false, if_false]
  by_cases a1 : (c.stop f).position = (E.vehicle (c.route r).vehicle).origin.position <;> simp [a1]
  by_cases a2 : (c.stop l).position = (E.vehicle (c.route r).vehicle).destination.position <;> simp [a2]
  by_cases a3 : (K.bound ((E.vehicle (c.route r).vehicle).destination.latest.addQ K.tolerance)).leQ
    (K.tmAt E c l).dep = true <;> simp [a3]
  by_cases a4 : (K.bound ((E.vehicle (c.route r).vehicle).timeout.addQ K.tolerance)).leQ
    (K.round ((K.tmAt E c l).dep - (K.tmAt E c f).dep)) = true <;> simp [a4]

theorem waitingTime_eq {s : Nat} (hs : s ∈ (c.route r).stops) :
    ∃ w, 0 ≤ w ∧ K.waitingTime E c s = .ok w := by
  have h := hK.at hE hw.toChained hq hs
  have h0 : 0 ≤ K.round ((K.tmAt E c s).start - (K.tmAt E c s).arr) := by
    have := hK.mono 0 ((K.tmAt E c s).start - (K.tmAt E c s).arr) (by linarith [h.1])
    rwa [hK.zero] at this
  have h1 : K.round (0 - K.tolerance) ≤ 0 := by
    have := hK.mono (0 - K.tolerance) 0 (by linarith [hK.tolerance])
    rwa [hK.zero] at this
  refine ⟨_, h0, ?_⟩
  unfold waitingTime
  rw [timesOf_at hw.toChained hs]
  simp only [bind, Except.bind, check]
  rw [if_pos (by simpa using le_trans h1 h0)]

end

end Reckoning

/-! ## Closeness -/

/-- Two bounds differ by at most `e`, or both are infinite. -/
def Bound.Near (e : ℚ) : Bound → Bound → Prop
  | .fin a, .fin b => |a - b| ≤ e
  | .inf, .inf => True
  | _, _ => False

theorem Bound.Near.min {e : ℚ} {a a' b b' : Bound} (h : Bound.Near e a a') (k : Bound.Near e b b') :
    Bound.Near e (Bound.min a b) (Bound.min a' b') := by
  cases a <;> cases a' <;> cases b <;> cases b' <;> simp_all [Bound.Near, Bound.min]
  rw [abs_le] at *
  split <;> split <;> constructor <;> linarith [h.1, h.2, k.1, k.2]

theorem Bound.Near.refl {e : ℚ} (h : 0 ≤ e) (b : Bound) : Bound.Near e b b := by
  cases b <;> simp [Bound.Near, h]

theorem Bound.Near.mono {e e' : ℚ} (h : e ≤ e') {a b : Bound} (k : Bound.Near e a b) : Bound.Near e' a b := by
  cases a <;> cases b <;> simp_all [Bound.Near]; linarith

theorem Bound.Within.mono {m m' : ℚ} (h : m ≤ m') {b : Bound} (k : b.Within m) : b.Within m' := by
  cases b <;> simp_all [Bound.Within]; linarith

theorem Bound.Within.min {m : ℚ} {a b : Bound} (h : a.Within m) (k : b.Within m) : (Bound.min a b).Within m := by
  cases a <;> cases b <;> simp_all [Bound.Within, Bound.min]; split <;> assumption

theorem Bound.Within.addQ {m q n : ℚ} {a : Bound} (h : a.Within m) (k : |q| ≤ n) : (a.addQ q).Within (m + n) := by
  cases a with
  | inf => trivial
  | fin a =>
    have := abs_add_le a q
    simp only [Bound.Within, Bound.addQ] at *; linarith

theorem Bound.Within.subQ {m q n : ℚ} {a : Bound} (h : a.Within m) (k : |q| ≤ n) : (a.subQ q).Within (m + n) :=
  Bound.Within.addQ h (by rwa [abs_neg])

theorem Bound.Within.add {m n : ℚ} {a b : Bound} (h : a.Within m) (k : b.Within n) : (a.add b).Within (m + n) := by
  cases a <;> cases b <;> simp only [Bound.Within, Bound.add] at *
  rename_i x y
  have := abs_add_le x y
  linarith

theorem abs_max_sub_max {a b x y e : ℚ} (h : |a - x| ≤ e) (k : |b - y| ≤ e) : |max a b - max x y| ≤ e :=
  le_trans (abs_max_sub_max_le_max a b x y) (max_le h k)

theorem abs_maxD {α : Type} {f g : α → ℚ} {e : ℚ} (he : 0 ≤ e) (h : ∀ a, |f a - g a| ≤ e) (l : List α) :
    |maxD 0 (l.map f) - maxD 0 (l.map g)| ≤ e := by
  cases l with
  | nil => simpa using he
  | cons a l =>
    simp only [List.map_cons, maxD]
    have : ∀ (l : List α) (x y : ℚ), |x - y| ≤ e → |(l.map f).foldl max x - (l.map g).foldl max y| ≤ e := by
      intro l
      induction l with
      | nil => intro x y k; simpa using k
      | cons b l ih => intro x y k; simpa using ih _ _ (abs_max_sub_max k (h b))
    exact this l _ _ (h a)

namespace Reckoning

variable {K : Reckoning} {E : Env} {c : Core} {r : Nat} {place : Pos → Prop} {H ε δ : ℚ}

section
variable (hC : K.Close E place H ε δ)
include hC

theorem Close.eps : 0 ≤ ε := by
  have h := hC.error 0 (by rw [abs_zero]; linarith [hC.one])
  exact le_trans (abs_nonneg _) h

theorem Close.del : 0 ≤ δ := le_trans (abs_nonneg _) (hC.dist _ _ (hC.depots 0) (hC.depots 0))

/-- Rounding what is close to `x`. -/
theorem Close.round {q x e : ℚ} (h : |q - x| ≤ e) (hx : |x| + e ≤ H) : |K.round q - x| ≤ e + ε := by
  have h1 := hC.error q (by have := abs_sub_abs_le_abs_sub q x; linarith)
  have := abs_sub_le (K.round q) q x
  linarith

theorem Close.bound {a b : Bound} {e m : ℚ} (h : Bound.Near e a b) (hb : b.Within m) (hm : m + e ≤ H) :
    Bound.Near (e + ε) (K.bound a) b := by
  cases a <;> cases b <;> simp_all [Bound.Near, Bound.Within, Reckoning.bound]
  exact hC.round h (by linarith)

theorem Close.tolerance : |K.tolerance - 1 / 1000| ≤ ε :=
  hC.error _ (by rw [abs_of_nonneg (by norm_num)]; linarith [hC.one])

theorem Close.originEarliest (t : Nat) :
    |K.originEarliest (E.trip t) - (E.trip t).originEarliest| ≤ 2 * ε + δ := by
  have h0 := hC.eps
  have h1 := hC.del
  have h2 := (hC.destination t).earliest
  have h3 := (hC.destination t).duration
  have h4 := hC.timeout t
  unfold Reckoning.originEarliest Trip.originEarliest
  cases h : (E.trip t).timeout with
  | inf => simp only [sub_self, abs_zero]; linarith
  | fin q =>
    rw [h] at h4
    simp only [Bound.Within] at h4
    refine abs_max_sub_max ?_ (by rw [sub_self, abs_zero]; linarith)
    have a1 := abs_sub (E.trip t).destination.earliest (E.trip t).destination.duration
    have e1 : |K.round ((E.trip t).destination.earliest - (E.trip t).destination.duration) -
        ((E.trip t).destination.earliest - (E.trip t).destination.duration)| ≤ ε := hC.error _ (by linarith [hC.one])
    have a2 := abs_sub ((E.trip t).destination.earliest - (E.trip t).destination.duration) q
    have e2 := hC.round (q := K.round ((E.trip t).destination.earliest - (E.trip t).destination.duration) - q)
      (x := (E.trip t).destination.earliest - (E.trip t).destination.duration - q) (e := ε)
      (by rw [sub_sub_sub_cancel_right]; exact e1) (by linarith [hC.small, hC.one])
    linarith

theorem Close.destinationEarliest (t : Nat) :
    |K.destinationEarliest (E.trip t) - (E.trip t).destinationEarliest E.metric| ≤ 2 * ε + δ := by
  have h0 := hC.eps
  have h1 := hC.del
  have h2 := (hC.origin t).earliest
  have h3 := (hC.origin t).duration
  have h4 := hC.dist _ _ (hC.ends t).1 (hC.ends t).2
  have h5 := hC.far _ _ (hC.ends t).1 (hC.ends t).2
  unfold Reckoning.destinationEarliest Trip.destinationEarliest Trip.directTime
  refine abs_max_sub_max ?_ (by rw [sub_self, abs_zero]; linarith)
  generalize K.dist (E.trip t).origin.position (E.trip t).destination.position = k at *
  generalize E.metric (E.trip t).origin.position (E.trip t).destination.position = m at *
  generalize (E.trip t).origin.earliest = a at *
  generalize (E.trip t).origin.duration = b at *
  have e1 : |K.round (a + b) - (a + b)| ≤ ε := hC.error _ (by linarith [hC.one, abs_add_le a b])
  have e2 := hC.round (q := K.round (a + b) + k) (x := a + b + k) (e := ε)
    (by rw [add_sub_add_right_eq_sub]; exact e1) (by linarith [hC.small, hC.one, abs_add_le a b, abs_add_le (a + b) k])
  have := abs_sub_le (K.round (K.round (a + b) + k)) (a + b + k) (a + b + m)
  have e3 : |a + b + k - (a + b + m)| = |k - m| := by congr 1; ring
  linarith

theorem Close.originLatest (t : Nat) :
    Bound.Near (2 * ε + δ) (K.originLatest (E.trip t)) ((E.trip t).originLatest E.metric) ∧
      (K.originLatest (E.trip t)).Within (5 * H / 8) := by
  have h0 := hC.eps
  have h1 := hC.del
  have h2 := (hC.destination t).latest
  have h3 := (hC.destination t).duration
  have h4 := hC.dist _ _ (hC.ends t).1 (hC.ends t).2
  have h5 := hC.far _ _ (hC.ends t).1 (hC.ends t).2
  have h6 := (hC.origin t).latest
  have h7 := hC.one
  have h8 := hC.small
  unfold Reckoning.originLatest Trip.originLatest Trip.directTime
  generalize K.dist (E.trip t).origin.position (E.trip t).destination.position = k at *
  generalize E.metric (E.trip t).origin.position (E.trip t).destination.position = m at *
  generalize (E.trip t).destination.latest = a at *
  generalize (E.trip t).destination.duration = b at *
  cases a with
  | inf => exact ⟨.min trivial (.refl (by linarith) _), .min trivial (h6.mono (by linarith))⟩
  | fin a =>
    simp only [Bound.Within] at h2
    have a1 := abs_sub a b
    have a2 := abs_sub (a - b) k
    have e1 : |K.round (a - b) - (a - b)| ≤ ε := hC.error _ (by linarith)
    have e2 := hC.round (q := K.round (a - b) - k) (x := a - b - k) (e := ε)
      (by rw [sub_sub_sub_cancel_right]; exact e1) (by linarith)
    have e3 : |a - b - k - (a - b - m)| = |k - m| := by rw [← abs_neg]; congr 1; ring
    have e4 := abs_sub_le (K.round (K.round (a - b) - k)) (a - b - k) (a - b - m)
    have e5 := abs_sub_abs_le_abs_sub (K.round (K.round (a - b) - k)) (a - b - k)
    refine ⟨.min ?_ (.refl (by linarith) _), .min ?_ (h6.mono (by linarith))⟩
    · simp only [Bound.subQ, Bound.addQ, Reckoning.bound, ← sub_eq_add_neg, Bound.Near]; linarith
    · simp only [Bound.subQ, Bound.addQ, Reckoning.bound, ← sub_eq_add_neg, Bound.Within]; linarith

theorem Close.destinationLatest (t : Nat) :
    Bound.Near (2 * ε + δ) (K.destinationLatest (E.trip t)) (E.trip t).destinationLatest ∧
      (K.destinationLatest (E.trip t)).Within (5 * H / 8) := by
  have h0 := hC.eps
  have h1 := hC.del
  have h2 := (hC.origin t).latest
  have h3 := (hC.origin t).duration
  have h4 := hC.timeout t
  have h6 := (hC.destination t).latest
  have h7 := hC.one
  have h8 := hC.small
  unfold Reckoning.destinationLatest Trip.destinationLatest
  generalize (E.trip t).origin.latest = a at *
  generalize (E.trip t).origin.duration = b at *
  generalize (E.trip t).timeout = k at *
  cases a with
  | inf => exact ⟨.min trivial (.refl (by linarith) _), .min trivial (h6.mono (by linarith))⟩
  | fin a =>
    cases k with
    | inf => exact ⟨.min trivial (.refl (by linarith) _), .min trivial (h6.mono (by linarith))⟩
    | fin k =>
      simp only [Bound.Within] at h2 h4
      have a1 := abs_add_le a b
      have a2 := abs_add_le (a + b) k
      have e1 : |K.round (a + b) - (a + b)| ≤ ε := hC.error _ (by linarith)
      have e2 := hC.round (q := K.round (a + b) + k) (x := a + b + k) (e := ε)
        (by rw [add_sub_add_right_eq_sub]; exact e1) (by linarith)
      have e5 := abs_sub_abs_le_abs_sub (K.round (K.round (a + b) + k)) (a + b + k)
      refine ⟨.min ?_ (.refl (by linarith) _), .min ?_ (h6.mono (by linarith))⟩
      · simp only [Bound.add, Bound.addQ, Reckoning.bound, Bound.Near]; linarith
      · simp only [Bound.add, Bound.addQ, Reckoning.bound, Bound.Within]; linarith

theorem Close.stopEarliest (s : Nat) : |K.stopEarliest E c s - (visitOf c s).earliest E| ≤ 2 * ε + δ := by
  have h : 0 ≤ 2 * ε + δ := by linarith [hC.eps, hC.del]
  rw [← stopEarliest_eq]
  unfold Reckoning.stopEarliest Jinete.stopEarliest
  have := abs_maxD (f := fun x : Bool × Nat => if x.1 then K.originEarliest (ptTrip E c x.2) else K.destinationEarliest (ptTrip E c x.2))
    (g := fun x : Bool × Nat => if x.1 then (ptTrip E c x.2).originEarliest else (ptTrip E c x.2).destinationEarliest E.metric) h
    (by
      rintro ⟨b, p⟩
      cases b
      · exact hC.destinationEarliest _
      · exact hC.originEarliest _)
    (((c.stop s).pickups.map fun p => (true, p)) ++ ((c.stop s).deliveries.map fun p => (false, p)))
  simpa [Function.comp_def] using this

/-- A comparison with a bound of the problem, computed and exact. -/
theorem Close.test {b b' : Bound} {x x' e₁ e₂ : ℚ} (hb : Bound.Near e₂ b' b) (hw : b'.Within (5 * H / 8)) (hx : |x' - x| ≤ e₁) :
    ((K.bound (b'.addQ K.tolerance)).leQ x' = true → (b.addQ (1 / 1000 + (e₁ + e₂ + 2 * ε))).leQ x = true) ∧
    ∀ τ, τ + (e₁ + e₂ + 2 * ε) ≤ 1 / 1000 → (b.addQ τ).leQ x = true → (K.bound (b'.addQ K.tolerance)).leQ x' = true := by
  have h0 := hC.tolerance
  have h1 := hC.one
  have h2 := hC.small
  cases b <;> cases b' <;> simp only [Bound.Near] at hb
  · rename_i b b'
    simp only [Bound.Within] at hw
    have e := hC.error (b' + K.tolerance) (by
      have := abs_add_le b' K.tolerance
      have := abs_sub_abs_le_abs_sub K.tolerance (1 / 1000)
      have : |(1 / 1000 : ℚ)| = 1 / 1000 := abs_of_nonneg (by norm_num)
      linarith)
    simp only [Bound.addQ, Reckoning.bound, Bound.leQ_fin]
    rw [abs_le] at *
    exact ⟨fun h => by linarith, fun τ _ h => by linarith⟩
  · simp [Bound.addQ, Reckoning.bound]

theorem Close.loadTime (s : Nat) : |stopLoadTime E c s| ≤ H / 8 := by
  unfold stopLoadTime
  by_cases h : ((c.stop s).pickups.map fun p => (ptTrip E c p).origin.duration) ++
      ((c.stop s).deliveries.map fun p => (ptTrip E c p).destination.duration) = []
  · rw [h]; simp only [maxD_nil, abs_zero]; linarith [hC.one]
  · have := maxD_mem (d := 0) h
    rw [List.mem_append, List.mem_map, List.mem_map] at this
    rcases this with ⟨p, _, e⟩ | ⟨p, _, e⟩ <;> rw [← e]
    · exact (hC.origin _).duration
    · exact (hC.destination _).duration

/-- One leg, computed and exact. -/
theorem Close.serve {t t' e₀ e : ℚ} {p : Pos} {s : Nat} (hp : place p) (hpl : place (c.stop s).position) (ht : |t' - t| ≤ e₀) (htH : |t| ≤ H / 4) (h1 : e₀ + δ + ε ≤ e)
    (h2 : 2 * ε + δ ≤ e) (h3 : e ≤ H / 8) (hst : |(Jinete.serve E t p (visitOf c s)).start| ≤ H / 4) :
    |(K.serve E c t' p s).start - (Jinete.serve E t p (visitOf c s)).start| ≤ e ∧
    |(K.serve E c t' p s).dep - (Jinete.serve E t p (visitOf c s)).dep| ≤ e + ε := by
  have g0 := hC.eps
  have g1 := hC.del
  have g2 := hC.one
  have g3 := hC.small
  have ha : |(K.serve E c t' p s).arr - (Jinete.serve E t p (visitOf c s)).arr| ≤ e := by
    have d := hC.dist _ _ hp hpl
    have f := hC.far _ _ hp hpl
    show |K.round (t' + K.dist p (c.stop s).position) - (t + E.metric p (c.stop s).position)| ≤ e
    generalize K.dist p (c.stop s).position = k at *
    generalize E.metric p (c.stop s).position = m at *
    have r := hC.error (t' + k) (by
      have := abs_add_le t' k
      have := abs_sub_abs_le_abs_sub t' t
      linarith)
    rw [abs_le] at *
    constructor <;> linarith
  have hs : |(K.serve E c t' p s).start - (Jinete.serve E t p (visitOf c s)).start| ≤ e := by
    refine abs_max_sub_max (abs_max_sub_max ?_ (le_trans (hC.stopEarliest s) h2)) ha
    show |(c.stop s).start.getD _ - (visitOf c s).request.getD _| ≤ e
    have : (visitOf c s).request = (c.stop s).start := rfl
    rw [this]
    cases (c.stop s).start with
    | none => exact ha
    | some q => simp only [Option.getD_some, sub_self, abs_zero]; linarith
  refine ⟨hs, ?_⟩
  have hl := hC.loadTime (c := c) s
  have e1 : (K.serve E c t' p s).dep = K.round ((K.serve E c t' p s).start + stopLoadTime E c s) := rfl
  have e2 : (Jinete.serve E t p (visitOf c s)).dep = (Jinete.serve E t p (visitOf c s)).start + stopLoadTime E c s := by
    rw [stopLoadTime_eq]; rfl
  rw [e1, e2]
  refine hC.round (by rw [add_sub_add_right_eq_sub]; exact hs) ?_
  have := abs_add_le (Jinete.serve E t p (visitOf c s)).start (stopLoadTime E c s)
  linarith

/-- Times of a stop of a chain, computed and exact. -/
theorem Close.tmRev {s : Nat} {anc : List Nat} {n : ℕ} (hn : anc.length + 1 ≤ n) (hH : (2 * n + 3) * (2 * ε + δ) ≤ H / 8)
    (hpl : ∀ x ∈ s :: anc, place (c.stop x).position)
    (hb : ∀ x anc', (x :: anc') <:+ (s :: anc) → |(Jinete.tmRev E c x anc').start| ≤ H / 4 ∧ |(Jinete.tmRev E c x anc').dep| ≤ H / 4) :
    |(K.tmRev E c s anc).start - (Jinete.tmRev E c s anc).start| ≤ (anc.length + 1) * (2 * ε + δ) ∧
    |(K.tmRev E c s anc).dep - (Jinete.tmRev E c s anc).dep| ≤ (anc.length + 1) * (2 * ε + δ) + ε := by
  have g0 := hC.eps
  have g1 := hC.del
  have g2 := hC.one
  have hη : 0 ≤ 2 * ε + δ := by linarith
  have small : ∀ m : ℕ, m ≤ n → (m : ℚ) * (2 * ε + δ) ≤ H / 8 := by
    intro m hm
    have h1 : (m : ℚ) ≤ 2 * n + 3 := by
      have : (m : ℚ) ≤ n := by exact_mod_cast hm
      have : (0 : ℚ) ≤ n := Nat.cast_nonneg n
      linarith
    exact le_trans (mul_le_mul_of_nonneg_right h1 hη) hH
  induction anc generalizing s with
  | nil =>
    have hv := (hC.start (c.stop s).vehicle).earliest
    have := small 1 hn
    have := hC.serve (c := c) (t := (E.vehicle (c.stop s).vehicle).origin.earliest)
      (t' := (E.vehicle (c.stop s).vehicle).origin.earliest) (e₀ := 0) (e := 2 * ε + δ)
      (p := (E.vehicle (c.stop s).vehicle).origin.position) (s := s) (hC.depots _) (hpl s (by simp)) (by simp) (by linarith) (by linarith) le_rfl
      (by simpa using this) (hb s [] (List.suffix_refl _)).1
    simp only [List.length_nil, Nat.cast_zero, zero_add, one_mul]
    exact this
  | cons p anc ih =>
    have hl : ((p :: anc).length : ℚ) = (anc.length : ℚ) + 1 := by simp
    have h0 : (0 : ℚ) ≤ anc.length := Nat.cast_nonneg _
    have ih := ih (s := p) (by simp only [List.length_cons] at hn; omega) (fun x hx => hpl x (List.mem_cons_of_mem _ hx))
      fun x anc' hx => hb x anc' (hx.trans (List.suffix_cons _ _))
    have hp := hb p anc (List.suffix_cons _ _)
    have h9 := small ((p :: anc).length + 1) hn
    have hmul : 0 ≤ (anc.length : ℚ) * (2 * ε + δ) := mul_nonneg h0 hη
    push_cast at h9
    rw [hl] at h9 ⊢
    exact hC.serve (c := c) (s := s) (hpl p (by simp)) (hpl s (by simp)) ih.2 hp.2 (by linarith) (by linarith) h9 (hb s (p :: anc) (List.suffix_refl _)).1

end

/-- A comparison with a computed bound, when the errors sum to at most `σ`. -/
theorem Close.cmp (hC : K.Close E place H ε δ) {b b' : Bound} {x x' e₁ e₂ σ : ℚ} (hb : Bound.Near e₂ b' b)
    (hw : b'.Within (5 * H / 8)) (hx : |x' - x| ≤ e₁) (hσ : e₁ + e₂ + 2 * ε ≤ σ) :
    ((K.bound (b'.addQ K.tolerance)).leQ x' = true → (b.addQ (1 / 1000 + σ)).leQ x = true) ∧
    ∀ τ, τ + σ ≤ 1 / 1000 → (b.addQ τ).leQ x = true → (K.bound (b'.addQ K.tolerance)).leQ x' = true := by
  have h := hC.test hb hw hx
  refine ⟨fun k => ?_, fun τ hτ k => h.2 τ (by linarith) k⟩
  have := h.1 k
  rw [Bound.leQ_addQ] at this ⊢
  exact Bound.leQ_mono (by linarith) this

theorem Sane.leQ_bound_min (hK : K.Sane E) (x t : ℚ) (a b : Bound) : (K.bound ((Bound.min a b).addQ t)).leQ x = true ↔
    (K.bound (a.addQ t)).leQ x = true ∧ (K.bound (b.addQ t)).leQ x = true := by
  cases a <;> cases b <;> simp [Bound.min, Bound.addQ, bound]
  rename_i a b
  split
  · exact ⟨fun h => ⟨le_trans h (hK.mono _ _ (by linarith)), h⟩, fun h => h.2⟩
  · exact ⟨fun h => ⟨h, le_trans h (hK.mono _ _ (by linarith))⟩, fun h => h.1⟩

theorem Sane.leQ_minBound (hK : K.Sane E) (x t : ℚ) (l : List Bound) : (K.bound ((minBound l).addQ t)).leQ x = true ↔
    ∀ b ∈ l, (K.bound (b.addQ t)).leQ x = true := by
  have aux : ∀ (l : List Bound) (z : Bound), (K.bound ((l.foldl Bound.min z).addQ t)).leQ x = true ↔
      (K.bound (z.addQ t)).leQ x = true ∧ ∀ b ∈ l, (K.bound (b.addQ t)).leQ x = true := by
    intro l
    induction l with
    | nil => simp
    | cons y l ih => intro z; simp [ih, hK.leQ_bound_min, and_assoc]
  cases l with
  | nil => simp [minBound, Bound.addQ, bound]
  | cons z l => simp [minBound, aux]

theorem Sane.leQ_stopLatest (hK : K.Sane E) (s : Nat) (x : ℚ) :
    (K.bound ((K.stopLatest E c s).addQ K.tolerance)).leQ x = true ↔
      (∀ p ∈ (c.stop s).pickups, (K.bound ((K.originLatest (ptTrip E c p)).addQ K.tolerance)).leQ x = true) ∧
      (∀ p ∈ (c.stop s).deliveries, (K.bound ((K.destinationLatest (ptTrip E c p)).addQ K.tolerance)).leQ x = true) := by
  unfold Reckoning.stopLatest
  rw [hK.leQ_minBound]
  simp only [List.mem_append, List.mem_map]
  constructor
  · intro h
    exact ⟨fun p hp => h _ (.inl ⟨p, hp, rfl⟩), fun p hp => h _ (.inr ⟨p, hp, rfl⟩)⟩
  · rintro ⟨h1, h2⟩ b (⟨p, hp, rfl⟩ | ⟨p, hp, rfl⟩)
    · exact h1 p hp
    · exact h2 p hp

/-! ## The verdict against the exact constraints -/

section
variable (hC : K.Close E place H ε δ) (hE : EnvOK E) (hw : WellFormed c r)
  (hH : (2 * ((c.route r).stops.length : ℚ) + 3) * (2 * ε + δ) ≤ H / 8)
  (hd : ∀ y ∈ (routeTimetable E c r).getLast?, y.dep ≤ H / 4) (hpl : ∀ s ∈ (c.route r).stops, place (c.stop s).position)
include hC hE hw hH hd hpl

omit hH hpl in
/-- The exact times of the route are in range. -/
theorem Close.range {x : Nat} (hx : x ∈ (c.route r).stops) :
    |(Jinete.tmAt E c x).start| ≤ H / 4 ∧ |(Jinete.tmAt E c x).dep| ≤ H / 4 := by
  obtain ⟨f, l, hf, hl⟩ := hw.ends
  have hfs : f ∈ (c.route r).stops := List.mem_of_head? hf
  obtain ⟨rest, ef⟩ : ∃ suf, (c.route r).stops = [] ++ f :: suf := by
    cases h : (c.route r).stops with
    | nil => rw [h] at hf; cases hf
    | cons a l => rw [h] at hf; cases hf; exact ⟨l, rfl⟩
  obtain ⟨init, el⟩ : ∃ pre, (c.route r).stops = pre ++ [l] := by
    obtain ⟨h, e⟩ := List.getLast?_eq_some_iff.1 hl
    exact ⟨_, e⟩
  have order : ∀ y, (Jinete.tmAt E c y).arr ≤ (Jinete.tmAt E c y).start ∧ (Jinete.tmAt E c y).start ≤ (Jinete.tmAt E c y).dep :=
    fun y => ⟨start_ge_arr _ _ _, tmRev_start_le_dep hE _ _ _⟩
  have hlow : -(H / 8) ≤ (Jinete.tmAt E c f).arr := by
    have hv := (hC.start (c.stop f).vehicle).earliest
    have hm := hE.metric (E.vehicle (c.stop f).vehicle).origin.position (c.stop f).position
    rw [hw.tmAt_eq ef]
    rw [abs_le] at hv
    show -(H / 8) ≤ _ + _
    have : (visitOf c f).pos = (c.stop f).position := rfl
    rw [this]
    linarith [hv.1]
  have hx1 : -(H / 8) ≤ (Jinete.tmAt E c x).start := by
    by_cases hfx : x = f
    · subst hfx; linarith [(order x).1]
    · have : x ∈ rest := by
        rw [ef] at hx; simpa [hfx] using hx
      obtain ⟨mid, suf, e⟩ := List.append_of_mem this
      have := hw.dep_le_arr hE (E := E) (pre := []) (u := f) (mid := mid) (d := x) (suf := suf) (by rw [ef, e])
      linarith [(order x).1, (order f).1, (order f).2]
  have hlast : (Jinete.tmAt E c l).dep ≤ H / 4 := hd _ (by rw [(hw.timetable_last (E := E) hl).1]; rfl)
  have hx2 : (Jinete.tmAt E c x).dep ≤ H / 4 := by
    by_cases hlx : x = l
    · subst hlx; exact hlast
    · have : x ∈ init := by
        rw [el] at hx; simpa [hlx] using hx
      obtain ⟨pre, mid, e⟩ := List.append_of_mem this
      have := hw.dep_le_arr hE (E := E) (pre := pre) (u := x) (mid := mid) (d := l) (suf := []) (by rw [el, e]; simp)
      linarith [(order l).1, (order l).2]
  have := (order x).2
  have := hC.one
  rw [abs_le, abs_le]
  exact ⟨⟨by linarith, by linarith⟩, ⟨by linarith, by linarith⟩⟩

/-- Times of a stop of the route, computed and exact. -/
theorem Close.at {s : Nat} (hs : s ∈ (c.route r).stops) :
    |(K.tmAt E c s).start - (Jinete.tmAt E c s).start| ≤ (c.route r).stops.length * (2 * ε + δ) ∧
    |(K.tmAt E c s).dep - (Jinete.tmAt E c s).dep| ≤ (c.route r).stops.length * (2 * ε + δ) + ε := by
  have g0 := hC.eps
  have g1 := hC.del
  have hη : 0 ≤ 2 * ε + δ := by linarith
  obtain ⟨pre, suf, e⟩ := List.append_of_mem hs
  have hlen : pre.reverse.length + 1 ≤ (c.route r).stops.length := by rw [e]; simp
  have hc : ((pre.reverse.length : ℚ) + 1) ≤ ((c.route r).stops.length : ℚ) := by exact_mod_cast hlen
  have h := hC.tmRev (c := c) (s := s) (anc := pre.reverse) hlen hH (fun x hx => hpl x (by
      rw [e]; simp only [List.mem_cons, List.mem_reverse, List.mem_append] at hx ⊢; tauto)) (by
    rintro x anc' ⟨t, ht⟩
    have e2 : pre ++ [s] = (anc'.reverse ++ [x]) ++ t.reverse := by
      have := congrArg List.reverse ht
      simpa using this.symm
    have e3 : (c.route r).stops = anc'.reverse ++ x :: (t.reverse ++ suf) := by
      have : (c.route r).stops = (pre ++ [s]) ++ suf := by simp [e]
      rw [this, e2]; simp
    have := hC.range hE hw hd (x := x) (by rw [e3]; simp)
    rw [hw.tmAt_eq e3] at this
    simpa using this)
  rw [tmAt_eq hw.toChained e, hw.tmAt_eq e]
  have := mul_le_mul_of_nonneg_right hc hη
  exact ⟨by linarith [h.1], by linarith [h.2]⟩

/-- The verdict of a route, computed, against the exact constraints. -/
theorem Close.verdict (hK : K.Sane E) (hq : K.Requests c r) :
    ∃ b, K.routeFeasible E c r = .ok b ∧
      (b = true → FeasibleWithin E (1 / 1000 + (2 * ((c.route r).stops.length : ℚ) + 3) * (2 * ε + δ))
        (E.vehicle (c.route r).vehicle) (itinerary c r)) ∧
      ∀ τ, τ + (2 * ((c.route r).stops.length : ℚ) + 3) * (2 * ε + δ) ≤ 1 / 1000 →
        FeasibleWithin E τ (E.vehicle (c.route r).vehicle) (itinerary c r) → b = true := by
  obtain ⟨f, l, hf, hl⟩ := hw.ends
  have hfs : f ∈ (c.route r).stops := List.mem_of_head? hf
  have hls : l ∈ (c.route r).stops := List.mem_of_getLast? hl
  obtain ⟨t1, t2⟩ := hw.timetable_head (E := E) hf
  obtain ⟨t3, t4⟩ := hw.timetable_last (E := E) hl
  have t1' : (vehicleTimetable E (E.vehicle (c.route r).vehicle) (itinerary c r)).head? = some (Jinete.tmAt E c f) := t1
  have t3' : (vehicleTimetable E (E.vehicle (c.route r).vehicle) (itinerary c r)).getLast? = some (Jinete.tmAt E c l) := t3
  refine ⟨_, routeFeasible_eq hK hE hw hq hf hl, ?_⟩
  have g0 := hC.eps
  have g1 := hC.del
  have g2 := hC.one
  have g3 := hC.small
  have hη : 0 ≤ 2 * ε + δ := by linarith
  have hat := fun s (hs : s ∈ (c.route r).stops) => hC.at hE hw hH hd hpl hs
  have hn0 : 0 ≤ ((c.route r).stops.length : ℚ) * (2 * ε + δ) := mul_nonneg (Nat.cast_nonneg _) hη
  obtain ⟨σ, hσ⟩ : ∃ σ, σ = (2 * ((c.route r).stops.length : ℚ) + 3) * (2 * ε + δ) := ⟨_, rfl⟩
  have hσ' : σ = 2 * (((c.route r).stops.length : ℚ) * (2 * ε + δ)) + 3 * (2 * ε + δ) := by rw [hσ]; ring
  rw [← hσ] at hH ⊢
  obtain ⟨N, hN⟩ : ∃ N, N = ((c.route r).stops.length : ℚ) * (2 * ε + δ) := ⟨_, rfl⟩
  rw [← hN] at hσ' hn0
  simp only [← hN] at hat
  have hveh : ∀ s ∈ (c.route r).stops, (c.stop s).vehicle = (c.route r).vehicle := hw.vehicle
  -- differences of two times
  have diff : ∀ {a a' b b' e e' : ℚ}, |a' - a| ≤ e → |b' - b| ≤ e' → |a| ≤ H / 4 → |b| ≤ H / 4 → e ≤ H / 8 → e' ≤ H / 8 + H / 8 →
      |K.round (a' - b') - (a - b)| ≤ e + e' + ε := by
    intro a a' b b' e e' h1 h2 h3 h4 h5 h6
    refine hC.round ?_ (by linarith [abs_sub a b])
    rw [abs_le] at *
    constructor <;> linarith
  have hrange := fun s (hs : s ∈ (c.route r).stops) => hC.range hE hw hd hs
  have loadT : ∀ v q, q ≤ K.round ((E.vehicle v).capacity + K.tolerance) ↔
      (K.bound ((Bound.fin (E.vehicle v).capacity).addQ K.tolerance)).leQ q = true := by
    intro v q; simp [Bound.addQ, Reckoning.bound]
  have loadC := fun v q => hC.cmp (b := .fin (E.vehicle v).capacity) (b' := .fin (E.vehicle v).capacity) (x := q) (x' := q) (e₁ := 0)
    (e₂ := 0) (σ := σ) (.refl le_rfl _) (by have := hC.room v; simp only [Bound.Within]; linarith) (by simp) (by linarith)
  have endC := hC.cmp (σ := σ) (.refl le_rfl _) ((hC.final (c.route r).vehicle).latest.mono (by linarith)) (hat l hls).2 (by linarith)
  have durC := hC.cmp (σ := σ) (.refl le_rfl _) ((hC.shift (c.route r).vehicle).mono (by linarith))
    (diff (hat l hls).2 (hat f hfs).2 (hrange l hls).2 (hrange f hfs).2 (by linarith) (by linarith)) (by linarith)
  have pickC := fun s (hs : s ∈ (c.route r).stops) p => hC.cmp (σ := σ) (hC.originLatest (c.pt p).trip).1
    (hC.originLatest (c.pt p).trip).2 (hat s hs).1 (by linarith)
  have dropC := fun s (hs : s ∈ (c.route r).stops) p => hC.cmp (σ := σ) (hC.destinationLatest (c.pt p).trip).1
    (hC.destinationLatest (c.pt p).trip).2 (hat s hs).1 (by linarith)
  have rideC := fun u (hu : u ∈ (c.route r).stops) d (hd : d ∈ (c.route r).stops) p =>
    hC.cmp (σ := σ) (.refl le_rfl _) ((hC.timeout (c.pt p).trip).mono (by linarith))
      (diff (hat d hd).1 (hat u hu).2 (hrange d hd).1 (hrange u hu).2 (by linarith) (by linarith)) (by linarith)
  have hpos : (0 : ℚ) ≤ 1 / 1000 + σ := by linarith
  constructor
  · intro hb
    rw [Bool.and_eq_true, List.all_eq_true] at hb
    obtain ⟨hv, hp⟩ := hb
    unfold vehV at hv
    simp only [Bool.and_eq_true, decide_eq_true_eq] at hv
    obtain ⟨v1, v2, v3, v4⟩ := hv
    refine ⟨?_, ?_, ?_, ?_, ?_, ?_⟩
    · rw [t2]; simp [visitOf, v1]
    · rw [t1']; intro x hx; cases hx
      have hm := hE.metric (E.vehicle (c.stop f).vehicle).origin.position (c.stop f).position
      obtain ⟨suf, e⟩ : ∃ suf, (c.route r).stops = [] ++ f :: suf := by
        cases h : (c.route r).stops with
        | nil => rw [h] at hf; cases hf
        | cons a l => rw [h] at hf; cases hf; exact ⟨l, rfl⟩
      rw [hw.tmAt_eq e, ← hveh f hfs]
      show _ ≤ _ + E.metric _ (visitOf c f).pos
      have : (visitOf c f).pos = (c.stop f).position := rfl
      rw [this]
      linarith
    · rw [t4]; simp [visitOf, v2]
    · rw [t3']; intro y hy; cases hy; exact endC.1 v3
    · rw [t1', t3']; intro x hx y hy; cases hx; cases hy; exact durC.1 v4
    · intro i j v w x y q q' t hv hw' hx hy hq hq' ht ht'
      have gi : ∃ su, (c.route r).stops[i]? = some su ∧ visitOf c su = v := by
        simpa [itinerary, List.getElem?_map, Option.map_eq_some_iff] using hv
      have gj : ∃ sd, (c.route r).stops[j]? = some sd ∧ visitOf c sd = w := by
        simpa [itinerary, List.getElem?_map, Option.map_eq_some_iff] using hw'
      obtain ⟨su, hi, rfl⟩ := gi
      obtain ⟨sd, hj, rfl⟩ := gj
      obtain ⟨p, hp1, hp2, rfl, hp4, hp5, hp6⟩ := hw.served hi hj ht ht'
      obtain ⟨a1, a2, _⟩ := hw.timetable_idx (E := E) hi
      obtain ⟨b1, b2, _⟩ := hw.timetable_idx (E := E) hj
      have ex : x = Jinete.tmAt E c su := by
        have := hx.symm.trans a1; simpa using this
      have ey : y = Jinete.tmAt E c sd := by
        have := hy.symm.trans b1; simpa using this
      have eq1 : q = loadAt E c su := by
        have := hq.symm.trans a2; simpa using this
      have eq2 : q' = loadAt E c sd := by
        have := hq'.symm.trans b2; simpa using this
      subst ex ey eq1 eq2
      have hsu := List.mem_of_getElem? hi
      have hsd := List.mem_of_getElem? hj
      have := hp p hp6
      unfold ptV at this
      rw [hp4, hp5] at this
      simp only [tripV, stopV, Bool.and_eq_true, decide_eq_true_eq, hK.leQ_stopLatest] at this
      obtain ⟨⟨⟨⟨u1, _⟩, u3⟩, ⟨_, d2⟩, d3⟩, hr⟩ := this
      rw [hveh su hsu, loadT] at u3
      rw [hveh sd hsd, loadT] at d3
      refine ⟨?_, (pickC su hsu p).1 (u1 p hp1), ?_, (dropC sd hsd p).1 (d2 p hp2), ?_, ?_, (rideC su hsu sd hsd p).1 hr⟩
      · have := le_stopEarliest_pick (E := E) hp1
        have := stopEarliest_le (E := E) (c := c) su
        simp only [ptTrip] at *
        linarith
      · have := le_stopEarliest_drop (E := E) hp2
        have := stopEarliest_le (E := E) (c := c) sd
        simp only [ptTrip] at *
        linarith
      · simpa [Bound.addQ] using (loadC _ _).1 u3
      · simpa [Bound.addQ] using (loadC _ _).1 d3
  · intro τ hτ hF
    have key : ∀ p u d, p ∈ routePlannedTrips c r → (c.pt p).pickup = some u → (c.pt p).delivery = some d →
        u ∈ (c.route r).stops ∧ d ∈ (c.route r).stops ∧ TripWithin E τ (E.vehicle (c.route r).vehicle) (c.pt p).trip
          (Jinete.tmAt E c u) (Jinete.tmAt E c d) (loadAt E c u) (loadAt E c d) := by
      intro p u d hp hu hd
      obtain ⟨u', d', pre, mid, suf, e, hu', hd', hpu, hpd⟩ := hw.stops_of hp
      rw [hu] at hu'; cases hu'
      rw [hd] at hd'; cases hd'
      have hus : u ∈ (c.route r).stops := by rw [e]; simp
      have hds : d ∈ (c.route r).stops := by rw [e]; simp
      obtain ⟨i, hi⟩ := List.getElem?_of_mem hus
      obtain ⟨j, hj⟩ := List.getElem?_of_mem hds
      obtain ⟨a1, a2, a3⟩ := hw.timetable_idx (E := E) hi
      obtain ⟨b1, b2, b3⟩ := hw.timetable_idx (E := E) hj
      exact ⟨hus, hds, hF.trips i j _ _ _ _ _ _ (c.pt p).trip a3 b3 a1 b1 a2 b2
        (List.mem_map_of_mem hpu) (List.mem_map_of_mem hpd)⟩
    have pickOf : ∀ s ∈ (c.route r).stops, ∀ q ∈ (c.stop s).pickups,
        (K.bound ((K.originLatest (ptTrip E c q)).addQ K.tolerance)).leQ (K.tmAt E c s).start = true := by
      intro s hs q hq
      have hqr : q ∈ routePlannedTrips c r := List.mem_flatMap.2 ⟨s, hs, hq⟩
      obtain ⟨u, d, pre, mid, suf, e, hu, hd, _, _⟩ := hw.stops_of hqr
      obtain ⟨a, b, e'⟩ := List.append_of_mem hs
      have := (hw.pick a s b e' q hq).2.1
      rw [hu] at this; cases this
      exact (pickC s hs q).2 τ hτ (key q s d hqr hu hd).2.2.pickLatest
    have dropOf : ∀ s ∈ (c.route r).stops, ∀ q ∈ (c.stop s).deliveries,
        (K.bound ((K.destinationLatest (ptTrip E c q)).addQ K.tolerance)).leQ (K.tmAt E c s).start = true := by
      intro s hs q hq
      have hqr : q ∈ routePlannedTrips c r := hw.deliveries_sub_pickups q (List.mem_flatMap.2 ⟨s, hs, hq⟩)
      obtain ⟨u, d, pre, mid, suf, e, hu, hd, _, _⟩ := hw.stops_of hqr
      obtain ⟨a, b, e'⟩ := List.append_of_mem hs
      have := (hw.drop a s b e' q hq).2.1
      rw [hd] at this; cases this
      exact (dropC s hs q).2 τ hτ (key q u s hqr hu hd).2.2.dropLatest
    have s1 := hF.startPos
    have s3 := hF.endPos
    have s4 := hF.endTime
    have s5 := hF.duration
    rw [t2] at s1
    rw [t4] at s3
    rw [t3'] at s4
    rw [t1', t3'] at s5
    rw [Bool.and_eq_true, List.all_eq_true]
    constructor
    · unfold vehV
      simp only [Bool.and_eq_true, decide_eq_true_eq]
      exact ⟨by simpa [visitOf] using s1, by simpa [visitOf] using s3, endC.2 τ hτ (s4 _ rfl), durC.2 τ hτ (s5 _ rfl _ rfl)⟩
    · intro p hp
      obtain ⟨u, d, pre, mid, suf, e, hu, hd, hpu, hpd⟩ := hw.stops_of hp
      obtain ⟨hus, hds, hok⟩ := key p u d hp hu hd
      unfold ptV
      rw [hu, hd]
      simp only [tripV, stopV, Bool.and_eq_true, decide_eq_true_eq, hK.leQ_stopLatest]
      rw [hveh u hus, hveh d hds, loadT, loadT]
      refine ⟨⟨⟨⟨pickOf u hus, dropOf u hus⟩, (loadC _ _).2 τ hτ ?_⟩, ⟨pickOf d hds, dropOf d hds⟩, (loadC _ _).2 τ hτ ?_⟩,
        (rideC u hus d hds p).2 τ hτ hok.ride⟩
      · simpa [Bound.addQ] using hok.pickLoad
      · simpa [Bound.addQ] using hok.dropLoad

end

end Reckoning

end Jinete
