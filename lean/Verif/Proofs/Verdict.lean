import Verif.Proofs.Modify
import Verif.Proofs.Bound

/-!
# Evaluating `feasible`

The effective verdict of a stop is the memoised one if present, otherwise the computed one; likewise for
planned trips and routes. Evaluating `feasible` returns the effective verdict and memoises it.
-/

set_option autoImplicit false

namespace Jinete

/-- Predecessors of a stop, nearest first, up to a depth. -/
def ancF (c : Core) : Nat → Nat → List Nat
  | 0, _ => []
  | n + 1, s => match (c.stop s).previous with
    | none => []
    | some p => p :: ancF c n p

theorem ancF_eq {c : Core} {s : Nat} {anc : List Nat} (ha : Anc c s anc) {n : Nat} (hn : anc.length ≤ n) :
    ancF c n s = anc := by
  induction anc generalizing s n with
  | nil =>
    cases n with
    | zero => rfl
    | succ n => simp [ancF, show (c.stop s).previous = none from ha]
  | cons p anc ih =>
    cases n with
    | zero => simp at hn
    | succ n =>
      rw [ancF, ha.1]
      simp only
      rw [ih ha.2 (by simpa using hn)]

section
variable (E : Env) (c : Core)

/-- Times of a stop by the recurrence. -/
def tmAt (s : Nat) : Tm := tmRev E c s (ancF c c.nStop s)

/-- Load after a stop by the recurrence. -/
def loadAt (s : Nat) : ℚ := loadRev E c s (ancF c c.nStop s)

/-- The computed verdict of a stop. -/
def stopV (s : Nat) : Bool :=
  decide (stopEarliest E c s ≤ (tmAt E c s).start + errorBound) &&
  ((stopLatest E c s).addQ errorBound).leQ (tmAt E c s).start &&
  decide (loadAt E c s ≤ (E.vehicle (c.stop s).vehicle).capacity + errorBound)

/-- The ride-time test of a planned trip. -/
def rideV (p u d : Nat) : Bool := ((ptTrip E c p).timeout.addQ errorBound).leQ ((tmAt E c d).start - (tmAt E c u).dep)

/-- The vehicle-level tests of a route. -/
def vehV (r : Nat) : Bool :=
  match (c.route r).stops.head?, (c.route r).stops.getLast? with
  | some f, some l =>
    decide ((c.stop f).position = (E.vehicle (c.route r).vehicle).origin.position) &&
    decide ((E.vehicle (c.route r).vehicle).origin.earliest - errorBound ≤ (tmAt E c f).arr) &&
    decide ((c.stop l).position = (E.vehicle (c.route r).vehicle).destination.position) &&
    ((E.vehicle (c.route r).vehicle).destination.latest.addQ errorBound).leQ (tmAt E c l).dep &&
    ((E.vehicle (c.route r).vehicle).timeout.addQ errorBound).leQ ((tmAt E c l).dep - (tmAt E c f).dep)
  | _, _ => false

end

section
variable (E : Env) (h : Heap)

/-- Effective verdict of a stop. -/
def effS (s : Nat) : Bool := (h.sfeas s).getD (stopV E h.core s)

/-- Verdict of a planned trip from effective stop verdicts. -/
def ptV (p : Nat) : Bool :=
  match (h.core.pt p).pickup, (h.core.pt p).delivery with
  | some u, some d => effS E h u && effS E h d && rideV E h.core p u d
  | _, _ => false

/-- Effective verdict of a planned trip. -/
def effP (p : Nat) : Bool := (h.pfeas p).getD (ptV E h p)

/-- Verdict of a route from effective planned-trip verdicts. -/
def routeV (r : Nat) : Bool := vehV E h.core r && (routePlannedTrips h.core r).all (effP E h)

/-- Effective verdict of a route. -/
def effR (r : Nat) : Bool := (h.rfeas r).getD (routeV E h r)

end

variable {E : Env}

/-- `h'` has the objects of `h` and possibly more memoised values, all equal to the effective ones. -/
structure GrowsV (E : Env) (h h' : Heap) : Prop where
  core : h'.core = h.core
  arr : ∀ s, h'.arr s = h.arr s ∨ ∃ anc, Anc h.core s anc ∧ h'.arr s = some (tmRev E h.core s anc).arr
  dep : ∀ s, h'.dep s = h.dep s ∨ ∃ anc, Anc h.core s anc ∧ h'.dep s = some (tmRev E h.core s anc).dep
  cap : ∀ s, h'.cap s = h.cap s ∨ ∃ anc, Anc h.core s anc ∧ h'.cap s = some (loadRev E h.core s anc)
  sfeas : ∀ s, h'.sfeas s = h.sfeas s ∨ h'.sfeas s = some (effS E h s)
  pfeas : ∀ p, h'.pfeas p = h.pfeas p ∨ h'.pfeas p = some (effP E h p)
  rfeas : ∀ r, h'.rfeas r = h.rfeas r ∨ h'.rfeas r = some (effR E h r)

theorem Grows.toV {h h' : Heap} (g : Grows E h h') : GrowsV E h h' :=
  ⟨g.core, g.arr, g.dep, g.cap, fun _ => .inl (by rw [g.sfeas]), fun _ => .inl (by rw [g.pfeas]), fun _ => .inl (by rw [g.rfeas])⟩

theorem GrowsV.refl (h : Heap) : GrowsV E h h := (Grows.refl h).toV

/-- The heap seen as a reader without verdicts. -/
theorem GrowsV.numbers {h h' : Heap} (g : GrowsV E h h') :
    Grows E h { h' with sfeas := h.sfeas, pfeas := h.pfeas, rfeas := h.rfeas } :=
  ⟨g.core, rfl, rfl, rfl, g.arr, g.dep, g.cap⟩

theorem GrowsV.coh {h h' : Heap} (g : GrowsV E h h') {s : Nat} (hs : CohAt E h s) : CohAt E h' s :=
  g.numbers.coh hs

theorem GrowsV.agree {h h' : Heap} {r : Nat} (g : GrowsV E h h') (hc : Chained h.core r) (ha : CachesAgree E h r) :
    CachesAgree E h' r := g.numbers.agree hc ha

theorem GrowsV.effS {h h' : Heap} (g : GrowsV E h h') (s : Nat) : effS E h' s = effS E h s := by
  unfold Jinete.effS
  rw [g.core]
  rcases g.sfeas s with e | e <;> rw [e]
  rfl

theorem GrowsV.ptV {h h' : Heap} (g : GrowsV E h h') (p : Nat) : ptV E h' p = ptV E h p := by
  unfold Jinete.ptV
  rw [g.core]
  cases (h.core.pt p).pickup with
  | none => rfl
  | some u =>
    cases (h.core.pt p).delivery with
    | none => rfl
    | some d => simp only [g.effS]

theorem GrowsV.effP {h h' : Heap} (g : GrowsV E h h') (p : Nat) : effP E h' p = effP E h p := by
  unfold Jinete.effP
  rcases g.pfeas p with e | e <;> rw [e]
  · rw [g.ptV]
  · rfl

theorem GrowsV.routeV {h h' : Heap} (g : GrowsV E h h') (r : Nat) : routeV E h' r = routeV E h r := by
  unfold Jinete.routeV
  rw [g.core]
  congr 1
  have : Jinete.effP E h' = Jinete.effP E h := funext g.effP
  rw [this]

theorem GrowsV.effR {h h' : Heap} (g : GrowsV E h h') (r : Nat) : effR E h' r = effR E h r := by
  unfold Jinete.effR
  rcases g.rfeas r with e | e <;> rw [e]
  · rw [g.routeV]
  · rfl

theorem GrowsV.trans {h1 h2 h3 : Heap} (a : GrowsV E h1 h2) (b : GrowsV E h2 h3) : GrowsV E h1 h3 := by
  refine ⟨b.core.trans a.core, ?_, ?_, ?_, ?_, ?_, ?_⟩
  · intro s
    rcases b.arr s with e | e
    · rw [e]; exact a.arr s
    · rw [a.core] at e; exact .inr e
  · intro s
    rcases b.dep s with e | e
    · rw [e]; exact a.dep s
    · rw [a.core] at e; exact .inr e
  · intro s
    rcases b.cap s with e | e
    · rw [e]; exact a.cap s
    · rw [a.core] at e; exact .inr e
  · intro s
    rcases b.sfeas s with e | e
    · rw [e]; exact a.sfeas s
    · rw [a.effS] at e; exact .inr e
  · intro s
    rcases b.pfeas s with e | e
    · rw [e]; exact a.pfeas s
    · rw [a.effP] at e; exact .inr e
  · intro s
    rcases b.rfeas s with e | e
    · rw [e]; exact a.rfeas s
    · rw [a.effR] at e; exact .inr e

/-- In every heap with objects `c` and correct memoised numbers on `L`, the method `m` returns `f h` and
only memoises effective values. -/
def Evals (E : Env) (c : Core) (L : List Nat) {α : Type} (m : M α) (f : Heap → α) : Prop :=
  ∀ h : Heap, h.core = c → (∀ s ∈ L, CohAt E h s) → ∃ h', m h = (.ok (f h), h') ∧ GrowsV E h h'

/-- A function of the heap that does not change when effective values are memoised. -/
def Stable (E : Env) {α : Type} (f : Heap → α) : Prop := ∀ h h', GrowsV E h h' → f h' = f h

theorem Reads.evals {c : Core} {L : List Nat} {α : Type} {m : M α} {a : α} (hm : Reads E c L m a) :
    Evals E c L m fun _ => a := by
  intro h hc hL
  obtain ⟨h', e, g⟩ := hm h hc hL
  exact ⟨h', e, g.toV⟩

namespace Evals

variable {c : Core} {L : List Nat} {α β : Type}

theorem pure (a : α) : Evals E c L (Pure.pure a : M α) fun _ => a := (Reads.pure a).evals

theorem bind {m : M α} {k : α → M β} {f : Heap → α} {g : α → Heap → β} (hm : Evals E c L m f)
    (hk : ∀ a, Evals E c L (k a) (g a)) (hs : ∀ a, Stable E (g a)) : Evals E c L (m >>= k) fun h => g (f h) h := by
  intro h hc hL
  obtain ⟨h1, e1, g1⟩ := hm h hc hL
  obtain ⟨h2, e2, g2⟩ := hk (f h) h1 (g1.core.trans hc) (fun s hs => g1.coh (hL s hs))
  exact ⟨h2, by rw [Py.bind_ok e1, e2, hs _ h h1 g1], g1.trans g2⟩

theorem bindR {m : M α} {k : α → M β} {a : α} {g : Heap → β} (hm : Reads E c L m a)
    (hk : Evals E c L (k a) g) (hs : Stable E g) : Evals E c L (m >>= k) g := by
  intro h hc hL
  obtain ⟨h1, e1, g1⟩ := hm h hc hL
  obtain ⟨h2, e2, g2⟩ := hk h1 (g1.core.trans hc) (fun s hs => g1.coh (hL s hs))
  exact ⟨h2, by rw [Py.bind_ok e1, e2, hs h h1 g1.toV], g1.toV.trans g2⟩

theorem read {k : Heap → M β} {g : Heap → β} (hk : ∀ h : Heap, h.core = c → Evals E c L (k h) g) :
    Evals E c L (Py.read >>= k) g := fun h hc hL => hk h hc h hc hL

theorem mapEach {l : List α} {k : α → M β} {g : α → Heap → β} (hk : ∀ x ∈ l, Evals E c L (k x) (g x))
    (hs : ∀ x ∈ l, Stable E (g x)) : Evals E c L (Py.mapEach l k) fun h => l.map fun x => g x h := by
  induction l with
  | nil => exact pure _
  | cons x l ih =>
    intro h hc hL
    obtain ⟨h1, e1, g1⟩ := hk x (by simp) h hc hL
    obtain ⟨h2, e2, g2⟩ := ih (fun y hy => hk y (by simp [hy])) (fun y hy => hs y (by simp [hy])) h1
      (g1.core.trans hc) (fun s hs => g1.coh (hL s hs))
    refine ⟨h2, ?_, g1.trans g2⟩
    rw [Py.mapEach, Py.bind_ok e1, Py.bind_ok e2]
    simp only [List.map_cons]
    have : (l.map fun x => g x h1) = l.map fun x => g x h :=
      List.map_congr_left fun y hy => hs y (by simp [hy]) h h1 g1
    rw [this]
    rfl

end Evals

theorem stable_const {α : Type} (a : α) : Stable E fun _ => a := fun _ _ _ => rfl

/-! ## Splits and positions -/

section
variable {c : Core} {r : Nat} {pre suf : List Nat} {s : Nat}

theorem Chained.tmAt_eq (hc : Chained c r) (e : (c.route r).stops = pre ++ s :: suf) :
    tmAt E c s = tmRev E c s pre.reverse := by
  unfold tmAt; rw [ancF_eq (hc.anc e) (hc.len e)]

theorem Chained.loadAt_eq (hc : Chained c r) (e : (c.route r).stops = pre ++ s :: suf) :
    loadAt E c s = loadRev E c s pre.reverse := by
  unfold loadAt; rw [ancF_eq (hc.anc e) (hc.len e)]

theorem Chained.arrival_at (hc : Chained c r) (hs : s ∈ (c.route r).stops) :
    Reads E c (c.route r).stops (arrival E s) (tmAt E c s).arr := by
  obtain ⟨pre, suf, e⟩ := List.append_of_mem hs
  rw [hc.tmAt_eq e]; exact hc.arrival_reads e

theorem Chained.starting_at (hc : Chained c r) (hs : s ∈ (c.route r).stops) :
    Reads E c (c.route r).stops (starting E s) (tmAt E c s).start := by
  obtain ⟨pre, suf, e⟩ := List.append_of_mem hs
  rw [hc.tmAt_eq e]; exact hc.starting_reads e

theorem Chained.departure_at (hc : Chained c r) (hs : s ∈ (c.route r).stops) :
    Reads E c (c.route r).stops (departure E s) (tmAt E c s).dep := by
  obtain ⟨pre, suf, e⟩ := List.append_of_mem hs
  rw [hc.tmAt_eq e]; exact hc.departure_reads e

theorem WellFormed.capacity_at (hE : EnvOK E) (hw : WellFormed c r) (hs : s ∈ (c.route r).stops) :
    Reads E c (c.route r).stops (capacity E s) (loadAt E c s) := by
  obtain ⟨pre, suf, e⟩ := List.append_of_mem hs
  rw [hw.loadAt_eq e]; exact hw.capacity_reads hE e

end

/-! ## Order of times -/

theorem maxD_nonneg {d : ℚ} {l : List ℚ} (hd : 0 ≤ d) (hl : ∀ x ∈ l, 0 ≤ x) : 0 ≤ maxD d l := by
  by_cases h : l = []
  · subst h; exact hd
  · exact hl _ (maxD_mem h)

theorem Visit.loadTime_nonneg (hE : EnvOK E) (v : Visit) : 0 ≤ v.loadTime E := by
  unfold Visit.loadTime
  refine maxD_nonneg (le_refl _) ?_
  intro x hx
  simp only [List.mem_append, List.mem_map] at hx
  rcases hx with ⟨t, _, e⟩ | ⟨t, _, e⟩ <;> rw [← e]
  · exact hE.originDuration t
  · exact hE.destinationDuration t

theorem tmRev_start_le_dep (hE : EnvOK E) (c : Core) (s : Nat) (anc : List Nat) :
    (tmRev E c s anc).start ≤ (tmRev E c s anc).dep := by
  have := (visitOf c s).loadTime_nonneg hE
  cases anc <;> simp only [tmRev, serve] <;> linarith

theorem tmRev_dep_le_arr (hE : EnvOK E) (c : Core) (s p : Nat) (anc : List Nat) :
    (tmRev E c p anc).dep ≤ (tmRev E c s (p :: anc)).arr := by
  have := hE.metric (c.stop p).position (visitOf c s).pos
  simp only [tmRev, serve]; linarith

/-- A stop is left before any later stop is reached. -/
theorem Chained.dep_le_arr (hE : EnvOK E) {c : Core} {r : Nat} (hc : Chained c r) {pre mid suf : List Nat} {u d : Nat}
    (e : (c.route r).stops = pre ++ u :: (mid ++ d :: suf)) : (tmAt E c u).dep ≤ (tmAt E c d).arr := by
  induction mid using List.reverseRec generalizing d suf with
  | nil =>
    have e1 : (c.route r).stops = (pre ++ [u]) ++ d :: suf := by simp [e]
    rw [hc.tmAt_eq e, hc.tmAt_eq e1]
    simp only [List.reverse_append, List.reverse_cons, List.reverse_nil, List.nil_append, List.singleton_append]
    exact tmRev_dep_le_arr hE c d u pre.reverse
  | append_singleton mid m ih =>
    have e1 : (c.route r).stops = pre ++ u :: (mid ++ m :: (d :: suf)) := by simp [e]
    have h1 := ih e1
    have e2 : (c.route r).stops = (pre ++ u :: mid) ++ m :: d :: suf := by simp [e]
    have e3 : (c.route r).stops = (pre ++ u :: mid ++ [m]) ++ d :: suf := by simp [e]
    have h2 : (tmAt E c m).dep ≤ (tmAt E c d).arr := by
      rw [hc.tmAt_eq e2, hc.tmAt_eq e3]
      have := tmRev_dep_le_arr hE c d m (pre ++ u :: mid).reverse
      simpa using this
    have h3 : (tmAt E c m).arr ≤ (tmAt E c m).start := start_ge_arr _ _ _
    have h4 : (tmAt E c m).start ≤ (tmAt E c m).dep := tmRev_start_le_dep hE _ _ _
    linarith

/-! ## Stop.feasible -/

theorem stable_effS (s : Nat) : Stable E fun h => effS E h s := fun _ _ g => g.effS s
theorem stable_ptV (p : Nat) : Stable E fun h => ptV E h p := fun _ _ g => g.ptV p
theorem stable_effP (p : Nat) : Stable E fun h => effP E h p := fun _ _ g => g.effP p
theorem stable_routeV (r : Nat) : Stable E fun h => routeV E h r := fun _ _ g => g.routeV r

section
variable {c : Core} {r : Nat}

theorem stopFeasibleBody_reads (hE : EnvOK E) (hw : WellFormed c r) {s : Nat} (hs : s ∈ (c.route r).stops) :
    Reads E c (c.route r).stops (stopFeasible.body E s) (stopV E c s) := by
  unfold stopFeasible.body
  refine Reads.read fun h hc => ?_
  rw [hc]
  refine (hw.starting_at hs).bind ?_
  unfold stopV
  by_cases h1 : stopEarliest E c s ≤ (tmAt E c s).start + errorBound
  · simp only [h1, not_true_eq_false, if_false, decide_true, Bool.true_and]
    refine (hw.starting_at hs).bind ?_
    by_cases h2 : ((stopLatest E c s).addQ errorBound).leQ (tmAt E c s).start = true
    · simp only [h2, not_true_eq_false, if_false, Bool.true_and]
      refine (hw.capacity_at hE hs).bind ?_
      by_cases h3 : loadAt E c s ≤ (E.vehicle (c.stop s).vehicle).capacity + errorBound
      · simp only [h3, not_true_eq_false, if_false, decide_true]; exact Reads.pure _
      · simp only [h3, not_false_eq_true, if_true, decide_false]; exact Reads.pure _
    · rw [Bool.not_eq_true] at h2
      simp only [h2, Bool.false_eq_true, not_false_eq_true, if_true, Bool.false_and]
      exact Reads.pure _
  · simp only [h1, not_false_eq_true, if_true, decide_false, Bool.false_and]; exact Reads.pure _

theorem stopFeasible_evals (hE : EnvOK E) (hw : WellFormed c r) {s : Nat} (hs : s ∈ (c.route r).stops) :
    Evals E c (c.route r).stops (stopFeasible E s) fun h => effS E h s := by
  intro h hc hL
  unfold stopFeasible
  simp only [Py.read_bind]
  cases hv : h.sfeas s with
  | some b =>
    refine ⟨h, ?_, GrowsV.refl h⟩
    simp [effS, hv]
  | none =>
    obtain ⟨h1, e1, g1⟩ := stopFeasibleBody_reads hE hw hs h hc hL
    have hval : effS E h s = stopV E c s := by simp [effS, hv, hc]
    refine ⟨{ h1 with sfeas := Function.update h1.sfeas s (some (stopV E c s)) }, ?_, ?_⟩
    · simp only
      rw [Py.bind_ok e1, hval]; rfl
    · refine g1.toV.trans ⟨rfl, fun _ => .inl rfl, fun _ => .inl rfl, fun _ => .inl rfl, ?_, fun _ => .inl rfl, fun _ => .inl rfl⟩
      intro x
      by_cases hx : x = s
      · subst hx
        refine .inr ?_
        rw [g1.toV.effS, hval]; simp
      · exact .inl (by simp [hx])

/-! ## PlannedTrip.feasible -/

theorem ptPickup_reads {L : List Nat} {p u : Nat} (hu : (c.pt p).pickup = some u) : Reads E c L (ptPickup p) u :=
  Reads.read fun h hc => by rw [hc]; exact Reads.unwrap hu

theorem ptDelivery_reads {L : List Nat} {p d : Nat} (hd : (c.pt p).delivery = some d) : Reads E c L (ptDelivery p) d :=
  Reads.read fun h hc => by rw [hc]; exact Reads.unwrap hd

theorem ptDuration_reads (hc : Chained c r) {p u d : Nat} (hu : (c.pt p).pickup = some u) (hd : (c.pt p).delivery = some d)
    (hus : u ∈ (c.route r).stops) (hds : d ∈ (c.route r).stops) :
    Reads E c (c.route r).stops (ptDuration E p) ((tmAt E c d).start - (tmAt E c u).dep) := by
  unfold ptDuration deliveryTime pickupTime
  exact ((ptDelivery_reads hd).bind (hc.starting_at hds)).bind
    (((ptPickup_reads hu).bind (hc.departure_at hus)).bind (Reads.pure _))

/-- Where a planned trip of a route is served. -/
theorem WellFormed.stops_of (hw : WellFormed c r) {p : Nat} (hp : p ∈ routePlannedTrips c r) :
    ∃ u d pre mid suf, (c.route r).stops = pre ++ u :: (mid ++ d :: suf) ∧ (c.pt p).pickup = some u ∧
      (c.pt p).delivery = some d ∧ p ∈ (c.stop u).pickups ∧ p ∈ (c.stop d).deliveries := by
  obtain ⟨u, hu, hpu⟩ := List.mem_flatMap.1 hp
  obtain ⟨pre, rest, e⟩ := List.append_of_mem hu
  obtain ⟨_, h1, d, hd, h2, h3⟩ := hw.pick pre u rest e p hpu
  obtain ⟨mid, suf, rfl⟩ := List.append_of_mem hd
  exact ⟨u, d, pre, mid, suf, e, h1, h2, hpu, h3⟩

theorem ptFeasibleBody_evals (hE : EnvOK E) (hw : WellFormed c r) {p : Nat} (hp : p ∈ routePlannedTrips c r) :
    Evals E c (c.route r).stops (ptFeasible.body E p) fun h => ptV E h p := by
  obtain ⟨u, d, pre, mid, suf, e, hu, hd, hpu, hpd⟩ := hw.stops_of hp
  have hus : u ∈ (c.route r).stops := by rw [e]; simp
  have hds : d ∈ (c.route r).stops := by rw [e]; simp
  have e' : (c.route r).stops = (pre ++ u :: mid) ++ d :: suf := by simp [e]
  have hval : ∀ h : Heap, h.core = c → ptV E h p = (effS E h u && effS E h d && rideV E c p u d) := by
    intro h hc
    unfold ptV
    rw [hc, hu, hd]
  have hdur := ptDuration_reads (E := E) hw.toChained hu hd hus hds
  have main : Evals E c (c.route r).stops (ptFeasible.body E p) fun h => effS E h u && effS E h d && rideV E c p u d := by
    have stR : Stable E fun h => effS E h u && effS E h d && rideV E c p u d := by
      intro h h' g
      simp only [g.effS]
    have stI : ∀ b : Bool, Stable E fun h => b && effS E h d && rideV E c p u d := by
      intro b h h' g
      simp only [g.effS]
    unfold ptFeasible.body
    refine Evals.bindR (ptDelivery_reads hd) ?_ stR
    refine Evals.bindR (allPrevious_reads (hw.anc e') (hw.len e')) ?_ stR
    refine Evals.read fun h hc => ?_
    rw [hc]
    refine Evals.bindR (Reads.assert ?_) ?_ stR
    · simp [hu]
    refine Evals.bindR (a := (tmAt E c u).dep) ((ptPickup_reads hu).bind (hw.departure_at hus)) ?_ stR
    refine Evals.bindR (a := (tmAt E c d).start) ((ptDelivery_reads hd).bind (hw.starting_at hds)) ?_ stR
    refine Evals.bindR (Reads.assert ?_) ?_ stR
    · have h1 := hw.dep_le_arr hE e
      have h2 : (tmAt E c d).arr ≤ (tmAt E c d).start := start_ge_arr _ _ _
      simp only [decide_eq_true_eq]; linarith
    refine Evals.bindR (ptPickup_reads hu) ?_ stR
    refine Evals.bind (g := fun b h => b && effS E h d && rideV E c p u d) (stopFeasible_evals hE hw hus) ?_ stI
    intro b
    cases b with
    | false => simpa using Evals.pure (E := E) (c := c) (L := (c.route r).stops) false
    | true =>
      simp only [not_true_eq_false, if_false, Bool.true_and]
      have stD : Stable E fun h => effS E h d && rideV E c p u d := fun h h' g => by simp only [g.effS]
      refine Evals.bindR (ptDelivery_reads hd) ?_ stD
      refine Evals.bind (g := fun b _ => b && rideV E c p u d) (stopFeasible_evals hE hw hds) ?_ (fun _ => stable_const _)
      intro b
      cases b with
      | false => simpa using Evals.pure (E := E) (c := c) (L := (c.route r).stops) false
      | true =>
        simp only [not_true_eq_false, if_false, Bool.true_and]
        refine Evals.bindR hdur ?_ (stable_const _)
        refine Evals.read fun h hc => ?_
        rw [hc]
        unfold rideV
        by_cases h1 : ((ptTrip E c p).timeout.addQ errorBound).leQ ((tmAt E c d).start - (tmAt E c u).dep) = true
        · simp only [h1, not_true_eq_false, if_false]; exact Evals.pure _
        · rw [Bool.not_eq_true] at h1
          simp only [h1, Bool.false_eq_true, not_false_eq_true, if_true]; exact Evals.pure _
  intro h hc hL
  obtain ⟨h', e1, g1⟩ := main h hc hL
  refine ⟨h', ?_, g1⟩
  simp only at e1 ⊢
  rw [e1, hval h hc]

theorem ptFeasible_evals (hE : EnvOK E) (hw : WellFormed c r) {p : Nat} (hp : p ∈ routePlannedTrips c r) :
    Evals E c (c.route r).stops (ptFeasible E p) fun h => effP E h p := by
  intro h hc hL
  unfold ptFeasible
  simp only [Py.read_bind]
  cases hv : h.pfeas p with
  | some b =>
    refine ⟨h, ?_, GrowsV.refl h⟩
    simp [effP, hv]
  | none =>
    obtain ⟨h1, e1, g1⟩ := ptFeasibleBody_evals hE hw hp h hc hL
    have hval : effP E h p = ptV E h p := by simp [effP, hv]
    refine ⟨{ h1 with pfeas := Function.update h1.pfeas p (some (ptV E h p)) }, ?_, ?_⟩
    · simp only
      rw [Py.bind_ok e1, hval]; rfl
    · refine g1.trans ⟨rfl, fun _ => .inl rfl, fun _ => .inl rfl, fun _ => .inl rfl, fun _ => .inl rfl, ?_, fun _ => .inl rfl⟩
      intro x
      by_cases hx : x = p
      · subst hx
        refine .inr ?_
        rw [g1.effP, hval]; simp
      · exact .inl (by simp [hx])

/-! ## Route.feasible -/

theorem feasiblePlannedTrips_evals (hE : EnvOK E) (hw : WellFormed c r) :
    Evals E c (c.route r).stops (feasiblePlannedTrips E r) fun h => (routePlannedTrips c r).all (effP E h) := by
  refine Evals.read fun h hc => ?_
  rw [hc]
  have h1 : Evals E c (c.route r).stops (Py.mapEach (routePlannedTrips c r) (ptFeasible E))
      fun h => (routePlannedTrips c r).map fun p => effP E h p :=
    Evals.mapEach (g := fun p h => effP E h p) (fun p hp => ptFeasible_evals hE hw hp) (fun p _ => stable_effP p)
  have h2 := h1.bind (g := fun l _ => l.foldl (fun a b => a && b) true) (k := fun l => pure (l.foldl (fun a b => a && b) true))
    (fun l => Evals.pure _) (fun _ => stable_const _)
  have h3 : ∀ (l : List Bool) (b : Bool), l.foldl (fun a b => a && b) b = (b && l.all id) := by
    intro l
    induction l with
    | nil => intro b; simp
    | cons x l ih => intro b; simp [ih, Bool.and_assoc]
  intro h' hc' hL
  obtain ⟨h'', e, g⟩ := h2 h' hc' hL
  refine ⟨h'', ?_, g⟩
  simp only at e ⊢
  rw [e, h3]
  simp [List.all_map, Function.comp_def]

theorem firstStop_reads (hc : Chained c r) {f : Nat} (hf : (c.route r).stops.head? = some f) {L : List Nat} :
    Reads E c L (firstStop r) f := by
  obtain ⟨l, hl⟩ : ∃ l, (c.route r).stops = f :: l := by
    cases h : (c.route r).stops with
    | nil => rw [h] at hf; simp at hf
    | cons x l => rw [h] at hf; simp at hf; subst hf; exact ⟨l, rfl⟩
  have hp : (c.stop f).previous = none := by simpa using hc.linked [] f l hl
  refine Reads.bind (a := (c.route r).stops) (Reads.read fun h hc => by rw [hc]; exact Reads.pure _) ?_
  refine (Reads.index (a := f) (by rw [hl]; rfl)).bind ?_
  refine Reads.read fun h hc' => ?_
  rw [hc']
  exact (Reads.assert (by rw [hp]; rfl)).bind (Reads.pure _)

theorem lastStop_reads {l : Nat} (hl : (c.route r).stops.getLast? = some l) {L : List Nat} :
    Reads E c L (lastStop r) l := by
  refine Reads.bind (a := (c.route r).stops) (Reads.read fun h hc => by rw [hc]; exact Reads.pure _) ?_
  exact Reads.unwrap hl

theorem routeDuration_reads (hc : Chained c r) {f l : Nat} (hf : (c.route r).stops.head? = some f)
    (hl : (c.route r).stops.getLast? = some l) :
    Reads E c (c.route r).stops (routeDuration E r) ((tmAt E c l).dep - (tmAt E c f).dep) := by
  unfold routeDuration
  exact (lastStop_reads hl).bind ((hc.departure_at (List.mem_of_getLast? hl)).bind
    ((firstStop_reads hc hf).bind ((hc.departure_at (List.mem_of_mem_head? hf)).bind (Reads.pure _))))

theorem WellFormed.ends (hw : WellFormed c r) : ∃ f l, (c.route r).stops.head? = some f ∧ (c.route r).stops.getLast? = some l := by
  have := hw.length
  cases h : (c.route r).stops with
  | nil => rw [h] at this; simp at this
  | cons x l => exact ⟨x, (x :: l).getLast (by simp), rfl, List.getLast?_eq_some_getLast _⟩

theorem routeFeasibleBody_evals (hE : EnvOK E) (hw : WellFormed c r) :
    Evals E c (c.route r).stops (routeFeasible.body E r) fun h => vehV E c r && (routePlannedTrips c r).all (effP E h) := by
  obtain ⟨f, l, hf, hl⟩ := hw.ends
  have hfs := List.mem_of_mem_head? hf
  have hls := List.mem_of_getLast? hl
  have hst : ∀ b : Bool, Stable E fun h => b && (routePlannedTrips c r).all (effP E h) := by
    intro b h h' g
    have : effP E h' = effP E h := funext g.effP
    simp only [this]
  unfold routeFeasible.body
  refine Evals.read fun h hc => ?_
  rw [hc]
  refine Evals.bindR (firstStop_reads hw.toChained hf) ?_ (hst _)
  unfold vehV
  rw [hf, hl]
  simp only
  generalize E.vehicle (c.route r).vehicle = v
  by_cases h1 : (c.stop f).position = v.origin.position
  swap
  · simpa [h1] using Evals.pure (E := E) (c := c) (L := (c.route r).stops) false
  simp only [h1, not_true_eq_false, if_false, decide_true, Bool.true_and]
  refine Evals.bindR (firstStop_reads hw.toChained hf) ?_ (hst _)
  refine Evals.bindR (hw.arrival_at hfs) ?_ (hst _)
  by_cases h2 : v.origin.earliest - errorBound ≤ (tmAt E c f).arr
  swap
  · simpa [h2] using Evals.pure (E := E) (c := c) (L := (c.route r).stops) false
  simp only [h2, not_true_eq_false, if_false, decide_true, Bool.true_and]
  refine Evals.bindR (lastStop_reads hl) ?_ (hst _)
  by_cases h3 : (c.stop l).position = v.destination.position
  swap
  · simpa [h3] using Evals.pure (E := E) (c := c) (L := (c.route r).stops) false
  simp only [h3, not_true_eq_false, if_false, decide_true, Bool.true_and]
  refine Evals.bindR (lastStop_reads hl) ?_ (hst _)
  refine Evals.bindR (hw.departure_at hls) ?_ (hst _)
  by_cases h4 : (v.destination.latest.addQ errorBound).leQ (tmAt E c l).dep = true
  swap
  · rw [Bool.not_eq_true] at h4
    simpa [h4] using Evals.pure (E := E) (c := c) (L := (c.route r).stops) false
  simp only [h4, not_true_eq_false, if_false, Bool.true_and]
  refine Evals.bindR (routeDuration_reads hw.toChained hf hl) ?_ (hst _)
  by_cases h5 : (v.timeout.addQ errorBound).leQ ((tmAt E c l).dep - (tmAt E c f).dep) = true
  swap
  · rw [Bool.not_eq_true] at h5
    simpa [h5] using Evals.pure (E := E) (c := c) (L := (c.route r).stops) false
  simp only [h5, not_true_eq_false, if_false, Bool.true_and]
  refine Evals.bind (g := fun b _ => b) (feasiblePlannedTrips_evals hE hw) ?_ (fun _ => stable_const _)
  intro b
  cases b
  · simpa using Evals.pure (E := E) (c := c) (L := (c.route r).stops) false
  · simpa using Evals.pure (E := E) (c := c) (L := (c.route r).stops) true

/-- Evaluating `route.feasible` returns and memoises the effective verdict. -/
theorem routeFeasible_evals (hE : EnvOK E) (hw : WellFormed c r) :
    Evals E c (c.route r).stops (routeFeasible E r) fun h => effR E h r := by
  intro h hc hL
  unfold routeFeasible
  simp only [Py.read_bind]
  cases hv : h.rfeas r with
  | some b =>
    refine ⟨h, ?_, GrowsV.refl h⟩
    simp [effR, hv]
  | none =>
    obtain ⟨h1, e1, g1⟩ := routeFeasibleBody_evals hE hw h hc hL
    have hval : effR E h r = (vehV E c r && (routePlannedTrips c r).all (effP E h)) := by
      simp [effR, hv, routeV, hc]
    refine ⟨{ h1 with rfeas := Function.update h1.rfeas r (some (effR E h r)) }, ?_, ?_⟩
    · simp only
      rw [Py.bind_ok e1, hval]; rfl
    · refine g1.trans ⟨rfl, fun _ => .inl rfl, fun _ => .inl rfl, fun _ => .inl rfl, fun _ => .inl rfl, fun _ => .inl rfl, ?_⟩
      intro x
      by_cases hx : x = r
      · subst hx
        refine .inr ?_
        rw [g1.effR]; simp
      · exact .inl (by simp [hx])

/-- After evaluation the route's verdict is memoised. -/
theorem routeFeasible_memo (hE : EnvOK E) (hw : WellFormed c r) {h : Heap} (hc : h.core = c)
    (hL : ∀ s ∈ (c.route r).stops, CohAt E h s) :
    ∃ h', routeFeasible E r h = (.ok (effR E h r), h') ∧ GrowsV E h h' ∧ h'.rfeas r = some (effR E h r) := by
  obtain ⟨h', e, g⟩ := routeFeasible_evals hE hw h hc hL
  refine ⟨h', e, g, ?_⟩
  rcases g.rfeas r with hr | hr
  · cases hv : h.rfeas r with
    | some b => rw [hr, hv]; simp [effR, hv]
    | none =>
      exfalso
      unfold routeFeasible at e
      simp only [Py.read_bind, hv] at e
      obtain ⟨h1, e1, g1⟩ := routeFeasibleBody_evals hE hw h hc hL
      rw [Py.bind_ok e1] at e
      have := congrArg (fun x => x.2.rfeas r) e
      simp only [Py.modify_bind, Py.pure_run, Function.update_self] at this
      rw [hr, hv] at this
      cases this
  · exact hr

end

end Jinete
