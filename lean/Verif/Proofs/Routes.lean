import Verif.Proofs.Clone
import Verif.Proofs.Feasible
import Verif.Spec.Reach

/-!
# Invariants of a family of routes

`RoutesOK E R h`: every route of the family `R` is well formed with correct memoised numbers, and two routes
of the family that share their first stop also share their second one. `VerdictsOK` bounds what memoised
verdicts may say. Writes that stay away from the family are described by `Keeps`.
-/

set_option autoImplicit false

namespace Jinete

variable {E : Env}

/-! ## The recurrence from a given stop on -/

theorem tmRev_over {c c' : Core} {m : Nat} {anc anc' : List Nat} (hd : (tmRev E c' m anc').dep = (tmRev E c m anc).dep)
    (hp : (c'.stop m).position = (c.stop m).position) (l : List Nat) (s : Nat)
    (hv : ∀ x ∈ s :: l, SameVisit c c' x) : tmRev E c' s (l ++ m :: anc') = tmRev E c s (l ++ m :: anc) := by
  induction l generalizing s with
  | nil => simp only [List.nil_append, tmRev]; rw [hd, hp, (hv s (by simp)).visit]
  | cons x l ih =>
    simp only [List.cons_append, tmRev]
    rw [ih x (fun y hy => hv y (by simp only [List.mem_cons] at hy ⊢; tauto)), (hv s (by simp)).visit,
      (hv x (by simp)).position]

/-- Same place and same trips (the requested start may differ). -/
structure SameServe (c c' : Core) (s : Nat) : Prop where
  pos : (c'.stop s).position = (c.stop s).position
  picks : (visitOf c' s).picks = (visitOf c s).picks
  drops : (visitOf c' s).drops = (visitOf c s).drops
  vehicle : (c'.stop s).vehicle = (c.stop s).vehicle

theorem SameVisit.serve {c c' : Core} {s : Nat} (h : SameVisit c c' s) : SameServe c c' s :=
  ⟨h.position, congrArg Visit.picks h.visit, congrArg Visit.drops h.visit, h.vehicle⟩

theorem loadRev_serve {c c' : Core} {s : Nat} {anc : List Nat} (h : ∀ x ∈ s :: anc, SameServe c c' x) :
    loadRev E c' s anc = loadRev E c s anc := by
  induction anc generalizing s with
  | nil => simp [loadRev, (h s (by simp)).picks, (h s (by simp)).drops]
  | cons p anc ih =>
    simp only [loadRev]
    rw [ih (fun x hx => h x (by simp only [List.mem_cons] at hx ⊢; exact .inr hx)), (h s (by simp)).picks,
      (h s (by simp)).drops]

/-! ## Times and loads of stops of a route -/

section
variable {c c' : Core} {r : Nat}

/-- Prefixes of a route: same visits, same times and loads. -/
theorem tmAt_prefix (hc : Chained c r) {r' : Nat} (hc' : Chained c' r') {pre suf suf' : List Nat}
    (e : (c.route r).stops = pre ++ suf) (e' : (c'.route r').stops = pre ++ suf')
    (hv : ∀ x ∈ pre, SameVisit c c' x) {s : Nat} (hs : s ∈ pre) :
    tmAt E c' s = tmAt E c s ∧ loadAt E c' s = loadAt E c s := by
  obtain ⟨a, b, rfl⟩ := List.append_of_mem hs
  have e1 : (c.route r).stops = a ++ s :: (b ++ suf) := by simp [e]
  have e2 : (c'.route r').stops = a ++ s :: (b ++ suf') := by simp [e']
  have hv' : ∀ x ∈ s :: a.reverse, SameVisit c c' x := by
    intro x hx
    refine hv x ?_
    simp only [List.mem_cons, List.mem_reverse, List.mem_append] at hx ⊢
    tauto
  rw [hc.tmAt_eq e1, hc'.tmAt_eq e2, hc.loadAt_eq e1, hc'.loadAt_eq e2, tmRev_congr hv', loadRev_congr hv']
  exact ⟨rfl, rfl⟩

theorem tmAt_same (hc : Chained c r) {r' : Nat} (hc' : Chained c' r') (e : (c'.route r').stops = (c.route r).stops)
    (hv : ∀ x ∈ (c.route r).stops, SameVisit c c' x) {s : Nat} (hs : s ∈ (c.route r).stops) :
    tmAt E c' s = tmAt E c s ∧ loadAt E c' s = loadAt E c s :=
  tmAt_prefix hc hc' (suf := []) (suf' := []) (by simp) (by simp [e]) hv hs

/-- Loads do not depend on requested starts. -/
theorem loadAt_serve (hc : Chained c r) {r' : Nat} (hc' : Chained c' r') (e : (c'.route r').stops = (c.route r).stops)
    (hv : ∀ x ∈ (c.route r).stops, SameServe c c' x) {s : Nat} (hs : s ∈ (c.route r).stops) :
    loadAt E c' s = loadAt E c s := by
  obtain ⟨a, b, e1⟩ := List.append_of_mem hs
  have e2 : (c'.route r').stops = a ++ s :: b := by rw [e, e1]
  rw [hc.loadAt_eq e1, hc'.loadAt_eq e2, loadRev_serve]
  intro x hx
  refine hv x ?_
  rw [e1]
  simp only [List.mem_cons, List.mem_reverse, List.mem_append] at hx ⊢
  tauto

end

/-! ## The same routes, served as soon as possible -/

/-- The same objects without requested starts. -/
def Core.asap (c : Core) : Core := { c with stop := fun s => { c.stop s with start := none } }

section
variable {c c' : Core} {r : Nat}

theorem asap_itinerary : itinerary c.asap r = asSoonAsPossible (itinerary c r) := by
  simp [itinerary, asSoonAsPossible, Core.asap, visitOf]

theorem asap_linked {l : List Nat} (h : Linked c l) : Linked c.asap l := h

theorem Chained.asap (h : Chained c r) : Chained c.asap r := ⟨h.nodup, h.alloc, asap_linked h.linked, h.vehicle⟩

theorem WellFormed.asap (h : WellFormed c r) : WellFormed c.asap r :=
  h.congr rfl (le_refl _) (le_refl _) (le_refl _) (fun _ _ => ⟨rfl, rfl, rfl, rfl⟩) fun _ _ => rfl

theorem SameServe.asap {s : Nat} (h : SameServe c c' s) : SameVisit c.asap c'.asap s := by
  refine ⟨?_, h.vehicle⟩
  have h1 := h.pos
  have h2 := h.picks
  have h3 := h.drops
  simp only [visitOf, Core.asap] at h1 h2 h3 ⊢
  rw [h1, h2, h3]

theorem asap_ancF {n s : Nat} : ancF c.asap n s = ancF c n s := by
  induction n generalizing s with
  | zero => rfl
  | succ n ih =>
    simp only [ancF, Core.asap]
    cases (c.stop s).previous with
    | none => rfl
    | some p => exact congrArg (p :: ·) ih

theorem serve_mono {t t' : ℚ} (h : t ≤ t') (p : Pos) (v : Visit) :
    (Jinete.serve E t p { v with request := none }).start ≤ (Jinete.serve E t' p v).start ∧
    (Jinete.serve E t p { v with request := none }).dep ≤ (Jinete.serve E t' p v).dep := by
  have key : (Jinete.serve E t p { v with request := none }).start ≤ (Jinete.serve E t' p v).start := by
    simp only [Jinete.serve, Option.getD_none]
    have h1 : t + E.metric p v.pos ≤ t' + E.metric p v.pos := by linarith
    refine max_le (max_le ?_ ?_) ?_
    · exact h1.trans (le_max_right _ _)
    · exact (le_max_right _ _).trans (le_max_left _ _)
    · exact h1.trans (le_max_right _ _)
  refine ⟨key, ?_⟩
  simp only [Jinete.serve] at key ⊢
  have : Visit.loadTime E { v with request := none } = Visit.loadTime E v := rfl
  linarith

/-- Nothing is served later without requested starts. -/
theorem asap_rev (s : Nat) (anc : List Nat) : (tmRev E c.asap s anc).start ≤ (tmRev E c s anc).start ∧
    (tmRev E c.asap s anc).dep ≤ (tmRev E c s anc).dep := by
  induction anc generalizing s with
  | nil => exact serve_mono (le_refl _) _ (visitOf c s)
  | cons p anc ih => exact serve_mono (ih p).2 _ (visitOf c s)

theorem asap_start (s : Nat) : (tmAt E c.asap s).start ≤ (tmAt E c s).start := by
  unfold tmAt
  rw [asap_ancF]
  exact (asap_rev s _).1

/-- The schedule without requested starts depends on places and trips. -/
theorem asapAt_serve (hc : Chained c r) {r' : Nat} (hc' : Chained c' r') (e : (c'.route r').stops = (c.route r).stops)
    (hv : ∀ x ∈ (c.route r).stops, SameServe c c' x) {s : Nat} (hs : s ∈ (c.route r).stops) :
    tmAt E c'.asap s = tmAt E c.asap s :=
  (tmAt_same hc.asap hc'.asap e (fun x hx => (hv x hx).asap) hs).1

end

/-! ## Families -/

/-- The routes of the family are well formed and coherent; a shared first stop is followed by the same
second stop. -/
structure RoutesOK (E : Env) (R : Nat → Prop) (h : Heap) : Prop where
  wf : ∀ q, R q → WellFormed h.core q
  agree : ∀ q, R q → ∀ s ∈ (h.core.route q).stops, CohAt E h s
  share : ∀ q, R q → ∀ q', R q' → ∀ s, (h.core.route q).stops.head? = some s →
    (h.core.route q').stops.head? = some s → (h.core.route q).stops[1]? = (h.core.route q').stops[1]?

/-- The load at a stop is within the capacity of its vehicle, and the stop is served before it closes if stops are served
as soon as possible. -/
structure loadOK (E : Env) (c : Core) (s : Nat) : Prop where
  load : loadAt E c s ≤ (E.vehicle (c.stop s).vehicle).capacity + errorBound
  closing : ((stopLatest E c s).addQ errorBound).leQ (tmAt E c.asap s).start = true

/-- How much is assumed of memoised verdicts: nothing, that positive ones are right about loads, ride times,
ends and closing times if stops are served as soon as possible, or that those of stops and planned trips are right in
every respect. -/
inductive Mode
  | any
  | sound
  | exact
  deriving DecidableEq

/-- What a memoised verdict of a stop may say. -/
structure StopVerdict (E : Env) (md : Mode) (c : Core) (s : Nat) (b : Bool) : Prop where
  load : md ≠ .any → b = true → loadOK E c s
  full : md = .exact → b = stopV E c s

/-- What a memoised verdict of a planned trip may say. -/
structure PtVerdict (E : Env) (md : Mode) (c : Core) (p : Nat) (b : Bool) : Prop where
  sound : md ≠ .any → b = true → ∃ u d, (c.pt p).pickup = some u ∧ (c.pt p).delivery = some d ∧ loadOK E c u ∧ loadOK E c d ∧
    rideV E c p u d = true
  full : md = .exact → b = tripV E c p

/-- The tests of a route on its ends, without the one on its duration. -/
def endsV (E : Env) (c : Core) (r : Nat) : Bool :=
  match (c.route r).stops.head?, (c.route r).stops.getLast? with
  | some f, some l =>
    decide ((c.stop f).position = (E.vehicle (c.route r).vehicle).origin.position) &&
    decide ((E.vehicle (c.route r).vehicle).origin.earliest - errorBound ≤ (tmAt E c f).arr) &&
    decide ((c.stop l).position = (E.vehicle (c.route r).vehicle).destination.position) &&
    ((E.vehicle (c.route r).vehicle).destination.latest.addQ errorBound).leQ (tmAt E c l).dep
  | _, _ => false

theorem endsV_of_vehV {c : Core} {r : Nat} (h : vehV E c r = true) : endsV E c r = true := by
  unfold vehV at h
  unfold endsV
  cases h1 : (c.route r).stops.head? with
  | none => rw [h1] at h; simp at h
  | some f =>
    cases h2 : (c.route r).stops.getLast? with
    | none => rw [h1, h2] at h; simp at h
    | some l =>
      rw [h1, h2] at h
      simp only [Bool.and_eq_true] at h ⊢
      exact h.1

/-- What a memoised verdict of a route may say. -/
structure RouteVerdict (E : Env) (md : Mode) (c : Core) (q : Nat) (b : Bool) : Prop where
  ends : md ≠ .any → b = true → endsV E c q = true
  trips : b = true → ∀ p ∈ routePlannedTrips c q, PtVerdict E md c p true

/-- The memoised verdicts along the routes of the family are as allowed. -/
structure VerdictsOK (E : Env) (md : Mode) (R : Nat → Prop) (h : Heap) : Prop where
  route : ∀ q, R q → ∀ b, h.rfeas q = some b → RouteVerdict E md h.core q b
  stop : ∀ q, R q → ∀ s ∈ (h.core.route q).stops, ∀ b, h.sfeas s = some b → StopVerdict E md h.core s b
  pt : ∀ q, R q → ∀ p ∈ routePlannedTrips h.core q, ∀ b, h.pfeas p = some b → PtVerdict E md h.core p b

theorem RoutesOK.subset {R R' : Nat → Prop} {h : Heap} (ok : RoutesOK E R h) (hs : ∀ q, R' q → R q) : RoutesOK E R' h :=
  ⟨fun q hq => ok.wf q (hs q hq), fun q hq => ok.agree q (hs q hq), fun q hq q' hq' => ok.share q (hs q hq) q' (hs q' hq')⟩

theorem VerdictsOK.subset {R R' : Nat → Prop} {md : Mode} {h : Heap} (ok : VerdictsOK E md R h)
    (hs : ∀ q, R' q → R q) : VerdictsOK E md R' h :=
  ⟨fun q hq => ok.route q (hs q hq), fun q hq => ok.stop q (hs q hq), fun q hq => ok.pt q (hs q hq)⟩

theorem VerdictsOK.or {R R' : Nat → Prop} {md : Mode} {h : Heap} (a : VerdictsOK E md R h)
    (b : VerdictsOK E md R' h) : VerdictsOK E md (fun q => R q ∨ R' q) h :=
  ⟨fun q hq => hq.elim (a.route q) (b.route q), fun q hq => hq.elim (a.stop q) (b.stop q), fun q hq => hq.elim (a.pt q) (b.pt q)⟩

theorem RoutesOK.growsV {R : Nat → Prop} {h h' : Heap} (ok : RoutesOK E R h) (g : GrowsV E h h') : RoutesOK E R h' := by
  refine ⟨?_, ?_, ?_⟩
  · rw [g.core]; exact ok.wf
  · rw [g.core]; exact fun q hq s hs => g.coh (ok.agree q hq s hs)
  · rw [g.core]; exact ok.share

theorem stopV_load {c : Core} {s : Nat} (h : stopV E c s = true) : loadOK E c s :=
  ⟨((stopV_iff s).1 h).2, Bound.leQ_mono (asap_start s) ((stopV_iff s).1 h).1⟩

theorem VerdictsOK.effS {R : Nat → Prop} {md : Mode} {h : Heap} (ok : VerdictsOK E md R h) {q s : Nat} (hq : R q)
    (hs : s ∈ (h.core.route q).stops) : StopVerdict E md h.core s (effS E h s) := by
  unfold Jinete.effS
  cases hv : h.sfeas s with
  | some b => exact ok.stop q hq s hs b hv
  | none => exact ⟨fun _ => stopV_load, fun _ => rfl⟩

theorem VerdictsOK.effP {R : Nat → Prop} {md : Mode} {h : Heap} (ok : VerdictsOK E md R h) {q p : Nat} (hq : R q)
    (hw : WellFormed h.core q) (hp : p ∈ routePlannedTrips h.core q) : PtVerdict E md h.core p (effP E h p) := by
  unfold Jinete.effP
  cases hv : h.pfeas p with
  | some b => exact ok.pt q hq p hp b hv
  | none =>
    obtain ⟨u, d, pre, mid, suf, e, hu, hd, hpu, hpd⟩ := hw.stops_of hp
    have su := ok.effS hq (s := u) (by rw [e]; simp)
    have sd := ok.effS hq (s := d) (by rw [e]; simp)
    simp only [Option.getD_none]
    unfold ptV
    rw [hu, hd]
    simp only
    refine ⟨?_, ?_⟩
    · intro hm hb
      simp only [Bool.and_eq_true] at hb
      exact ⟨u, d, hu, hd, su.load hm hb.1.1, sd.load hm hb.1.2, hb.2⟩
    · intro hx
      unfold tripV
      rw [hu, hd]
      simp only
      rw [← su.full hx, ← sd.full hx]

theorem VerdictsOK.effR {R : Nat → Prop} {md : Mode} {h : Heap} (ok : VerdictsOK E md R h) {q : Nat} (hq : R q)
    (hw : WellFormed h.core q) : RouteVerdict E md h.core q (effR E h q) := by
  unfold Jinete.effR
  cases hv : h.rfeas q with
  | some b => exact ok.route q hq b hv
  | none =>
    simp only [Option.getD_none]
    unfold routeV
    refine ⟨fun _ hb => ?_, fun hb => ?_⟩
    · rw [Bool.and_eq_true] at hb
      exact endsV_of_vehV hb.1
    · rw [Bool.and_eq_true, List.all_eq_true] at hb
      intro p hp
      have := ok.effP hq hw hp
      rw [hb.2 p hp] at this
      exact this

theorem VerdictsOK.growsV {R : Nat → Prop} {md : Mode} {h h' : Heap} (ok : VerdictsOK E md R h)
    (hw : ∀ q, R q → WellFormed h.core q) (g : GrowsV E h h') : VerdictsOK E md R h' := by
  refine ⟨?_, ?_, ?_⟩
  · rw [g.core]
    intro q hq b hb
    rcases g.rfeas q with e | e
    · rw [e] at hb; exact ok.route q hq b hb
    · rw [e] at hb; cases hb; exact ok.effR hq (hw q hq)
  · rw [g.core]
    intro q hq s hs b hb
    rcases g.sfeas s with e | e
    · rw [e] at hb; exact ok.stop q hq s hs b hb
    · rw [e] at hb; cases hb; exact ok.effS hq hs
  · rw [g.core]
    intro q hq p hp b hb
    rcases g.pfeas p with e | e
    · rw [e] at hb; exact ok.pt q hq p hp b hb
    · rw [e] at hb; cases hb; exact ok.effP hq (hw q hq) hp

/-! ## Writes elsewhere -/

/-- A write that changes no attribute of the family and at most drops memoised values. -/
structure Keeps (R : Nat → Prop) (h h' : Heap) : Prop where
  rfeas : ∀ q, R q → h'.rfeas q = h.rfeas q ∨ h'.rfeas q = none
  nStop : h.core.nStop ≤ h'.core.nStop
  nPt : h.core.nPt ≤ h'.core.nPt
  nRoute : h.core.nRoute ≤ h'.core.nRoute
  route : ∀ q, R q → h'.core.route q = h.core.route q
  stop : ∀ q, R q → ∀ s ∈ (h.core.route q).stops, h'.core.stop s = h.core.stop s
  pt : ∀ q, R q → ∀ s ∈ (h.core.route q).stops, ∀ p ∈ ptsAt h.core s, h'.core.pt p = h.core.pt p
  arr : ∀ q, R q → ∀ s ∈ (h.core.route q).stops, h'.arr s = h.arr s ∨ h'.arr s = none
  dep : ∀ q, R q → ∀ s ∈ (h.core.route q).stops, h'.dep s = h.dep s ∨ h'.dep s = none
  cap : ∀ q, R q → ∀ s ∈ (h.core.route q).stops, h'.cap s = h.cap s ∨ h'.cap s = none
  sfeas : ∀ q, R q → ∀ s ∈ (h.core.route q).stops, h'.sfeas s = h.sfeas s ∨ h'.sfeas s = none
  pfeas : ∀ q, R q → ∀ s ∈ (h.core.route q).stops, ∀ p ∈ ptsAt h.core s, h'.pfeas p = h.pfeas p ∨ h'.pfeas p = none

/-- The attributes of the family are the same. -/
structure SameCore (R : Nat → Prop) (c c' : Core) : Prop where
  nStop : c.nStop ≤ c'.nStop
  nPt : c.nPt ≤ c'.nPt
  nRoute : c.nRoute ≤ c'.nRoute
  route : ∀ q, R q → c'.route q = c.route q
  stop : ∀ q, R q → ∀ s ∈ (c.route q).stops, c'.stop s = c.stop s
  pt : ∀ q, R q → ∀ s ∈ (c.route q).stops, ∀ p ∈ ptsAt c s, c'.pt p = c.pt p

theorem Keeps.core {R : Nat → Prop} {h h' : Heap} (k : Keeps R h h') : SameCore R h.core h'.core :=
  ⟨k.nStop, k.nPt, k.nRoute, k.route, k.stop, k.pt⟩

theorem Keeps.subset {R R' : Nat → Prop} {h h' : Heap} (k : Keeps R h h') (hs : ∀ q, R' q → R q) : Keeps R' h h' :=
  ⟨fun q hq => k.rfeas q (hs q hq), k.nStop, k.nPt, k.nRoute, fun q hq => k.route q (hs q hq),
    fun q hq => k.stop q (hs q hq), fun q hq => k.pt q (hs q hq),
    fun q hq => k.arr q (hs q hq), fun q hq => k.dep q (hs q hq), fun q hq => k.cap q (hs q hq),
    fun q hq => k.sfeas q (hs q hq), fun q hq => k.pfeas q (hs q hq)⟩

namespace SameCore

variable {R : Nat → Prop} {c c' : Core}

theorem refl (c : Core) : SameCore R c c :=
  ⟨le_refl _, le_refl _, le_refl _, fun _ _ => rfl, fun _ _ _ _ => rfl, fun _ _ _ _ _ _ => rfl⟩

theorem of_eq (e : c' = c) : SameCore R c c' := by subst e; exact refl _

theorem trans {c'' : Core} (a : SameCore R c c') (b : SameCore R c' c'') : SameCore R c c'' := by
  refine ⟨a.nStop.trans b.nStop, a.nPt.trans b.nPt, a.nRoute.trans b.nRoute, fun q hq => (b.route q hq).trans (a.route q hq), ?_, ?_⟩
  · intro q hq s hs
    rw [b.stop q hq s (by rw [a.route q hq]; exact hs), a.stop q hq s hs]
  · intro q hq s hs p hp
    rw [b.pt q hq s (by rw [a.route q hq]; exact hs) p (by unfold ptsAt at *; rw [a.stop q hq s hs]; exact hp),
      a.pt q hq s hs p hp]

theorem subset {R' : Nat → Prop} (a : SameCore R c c') (hs : ∀ q, R' q → R q) : SameCore R' c c' :=
  ⟨a.nStop, a.nPt, a.nRoute, fun q hq => a.route q (hs q hq), fun q hq => a.stop q (hs q hq), fun q hq => a.pt q (hs q hq)⟩

theorem visit (a : SameCore R c c') {q s : Nat} (hq : R q) (hs : s ∈ (c.route q).stops) : SameVisit c c' s := by
  refine ⟨?_, by rw [a.stop q hq s hs]⟩
  unfold visitOf
  rw [a.stop q hq s hs]
  congr 1
  · exact List.map_congr_left fun p hp => by rw [a.pt q hq s hs p (List.mem_append_left _ hp)]
  · exact List.map_congr_left fun p hp => by rw [a.pt q hq s hs p (List.mem_append_right _ hp)]

theorem wf (a : SameCore R c c') {q : Nat} (hq : R q) (hw : WellFormed c q) : WellFormed c' q := by
  refine hw.congr (a.route q hq) a.nStop a.nPt a.nRoute (fun s hs => by rw [a.stop q hq s hs]; simp) ?_
  intro p hp
  obtain ⟨s, hs, hps⟩ := List.mem_flatMap.1 hp
  exact a.pt q hq s hs p (List.mem_append_left _ hps)

theorem itinerary (a : SameCore R c c') {q : Nat} (hq : R q) : itinerary c' q = itinerary c q := by
  unfold Jinete.itinerary
  rw [a.route q hq]
  exact List.map_congr_left fun s hs => (a.visit hq hs).visit

theorem tm (a : SameCore R c c') {q s : Nat} (hq : R q) (hw : WellFormed c q) (hs : s ∈ (c.route q).stops) :
    tmAt E c' s = tmAt E c s ∧ loadAt E c' s = loadAt E c s :=
  tmAt_same hw.toChained (a.wf hq hw).toChained (by rw [a.route q hq]) (fun x hx => a.visit hq hx) hs

theorem planned (a : SameCore R c c') {q : Nat} (hq : R q) : routePlannedTrips c' q = routePlannedTrips c q := by
  unfold routePlannedTrips
  rw [a.route q hq]
  exact List.flatMap_congr fun s hs => by rw [a.stop q hq s hs]

end SameCore

theorem stopEarliest_congr {c c' : Core} {s : Nat} (h : SameServe c c' s) : stopEarliest E c' s = stopEarliest E c s := by
  simp only [stopEarliest_eq, Visit.earliest, h.picks, h.drops]

theorem stopLatest_congr {c c' : Core} {s : Nat} (h : SameServe c c' s) : stopLatest E c' s = stopLatest E c s := by
  have key : ∀ c : Core, stopLatest E c s = minBound (((visitOf c s).picks.map fun t => (E.trip t).originLatest E.metric) ++
      ((visitOf c s).drops.map fun t => (E.trip t).destinationLatest)) := by
    intro c; simp [stopLatest, visitOf, ptTrip, Function.comp_def]
  rw [key, key, h.picks, h.drops]

theorem loadOK.congr {c c' : Core} {s : Nat} (h : loadOK E c s) (hs : SameServe c c' s) (hl : loadAt E c' s = loadAt E c s)
    (ht : tmAt E c'.asap s = tmAt E c.asap s) : loadOK E c' s :=
  ⟨by rw [hl, hs.vehicle]; exact h.load, by rw [ht, stopLatest_congr hs]; exact h.closing⟩

theorem stopV_congr {c c' : Core} {s : Nat} (h : SameServe c c' s) (ht : (tmAt E c' s).start = (tmAt E c s).start)
    (hl : loadAt E c' s = loadAt E c s) : stopV E c' s = stopV E c s := by
  unfold stopV
  rw [stopEarliest_congr h, stopLatest_congr h, ht, hl, h.vehicle]

theorem Keeps.routesOK {R : Nat → Prop} {h h' : Heap} (k : Keeps R h h') (ok : RoutesOK E R h) : RoutesOK E R h' := by
  refine ⟨fun q hq => k.core.wf hq (ok.wf q hq), ?_, ?_⟩
  · intro q hq s hs
    rw [k.route q hq] at hs
    obtain ⟨a, b, e⟩ := List.append_of_mem hs
    have hw' := k.core.wf hq (ok.wf q hq)
    refine (ok.agree q hq s hs).congr ((ok.wf q hq).anc e) (hw'.anc (by rw [k.route q hq]; exact e)) ?_
      (k.arr q hq s hs) (k.dep q hq s hs) (k.cap q hq s hs)
    intro x hx
    exact k.core.visit hq (sub_of_split e x hx)
  · intro q hq q' hq' s h1 h2
    rw [k.route q hq] at h1 ⊢
    rw [k.route q' hq'] at h2 ⊢
    exact ok.share q hq q' hq' s h1 h2

/-- The predicate of a verdict on a planned trip carries over. -/
theorem PtVerdict.congr {md : Mode} {c c' : Core} {p u d : Nat} {b : Bool} (hv : PtVerdict E md c p b)
    (hu : (c.pt p).pickup = some u) (hd : (c.pt p).delivery = some d) (hpp : c'.pt p = c.pt p)
    (lu : loadOK E c u → loadOK E c' u) (ld : loadOK E c d → loadOK E c' d)
    (hride : rideV E c' p u d = rideV E c p u d)
    (su : md = .exact → stopV E c' u = stopV E c u) (sd : md = .exact → stopV E c' d = stopV E c d) :
    PtVerdict E md c' p b := by
  refine ⟨fun hm h0 => ?_, fun hx => ?_⟩
  · obtain ⟨u', d', h1, h2, h3, h4, h5⟩ := hv.sound hm h0
    rw [hu] at h1; cases h1
    rw [hd] at h2; cases h2
    exact ⟨u, d, by rw [hpp]; exact hu, by rw [hpp]; exact hd, lu h3, ld h4, by rw [hride]; exact h5⟩
  · rw [hv.full hx]
    unfold tripV
    rw [hpp, hu, hd]
    simp only
    rw [su hx, sd hx, hride]

/-- The objects of the family are the same up to the requested start of first stops, and from the second
stop on all times are the same. -/
structure SameT (E : Env) (R : Nat → Prop) (c c' : Core) : Prop where
  nStop : c.nStop ≤ c'.nStop
  nPt : c.nPt ≤ c'.nPt
  nRoute : c.nRoute ≤ c'.nRoute
  route : ∀ q, R q → c'.route q = c.route q
  stop : ∀ q, R q → ∀ s ∈ (c.route q).stops, c'.stop s = { c.stop s with start := (c'.stop s).start }
  start : ∀ q, R q → ∀ s ∈ (c.route q).stops.tail, (c'.stop s).start = (c.stop s).start
  pt : ∀ q, R q → ∀ s ∈ (c.route q).stops, ∀ p ∈ ptsAt c s, c'.pt p = c.pt p
  load : ∀ q, R q → ∀ s ∈ (c.route q).stops, loadAt E c' s = loadAt E c s
  head : ∀ q, R q → ∀ s ∈ (c.route q).stops, (c.route q).stops.head? = some s → (tmAt E c' s).arr = (tmAt E c s).arr
  tm : ∀ q, R q → ∀ s ∈ (c.route q).stops.tail, (tmAt E c' s).start = (tmAt E c s).start ∧
    (tmAt E c' s).dep = (tmAt E c s).dep

namespace SameT

variable {R : Nat → Prop} {c c' : Core}

theorem refl (c : Core) : SameT E R c c :=
  ⟨le_refl _, le_refl _, le_refl _, fun _ _ => rfl, fun _ _ _ _ => rfl, fun _ _ _ _ => rfl, fun _ _ _ _ _ _ => rfl,
    fun _ _ _ _ => rfl, fun _ _ _ _ _ => rfl, fun _ _ _ _ => ⟨rfl, rfl⟩⟩

theorem of_core (a : SameCore R c c') (hw : ∀ q, R q → WellFormed c q) : SameT E R c c' := by
  refine ⟨a.nStop, a.nPt, a.nRoute, a.route, ?_, ?_, a.pt, ?_, ?_, ?_⟩
  · intro q hq s hs; rw [a.stop q hq s hs]
  · intro q hq s hs; rw [a.stop q hq s (List.mem_of_mem_tail hs)]
  · intro q hq s hs; exact (a.tm hq (hw q hq) hs).2
  · intro q hq s hs _; rw [(a.tm hq (hw q hq) hs).1]
  · intro q hq s hs; rw [(a.tm hq (hw q hq) (List.mem_of_mem_tail hs)).1]; exact ⟨rfl, rfl⟩

theorem subset {R' : Nat → Prop} (a : SameT E R c c') (hs : ∀ q, R' q → R q) : SameT E R' c c' :=
  ⟨a.nStop, a.nPt, a.nRoute, fun q hq => a.route q (hs q hq), fun q hq => a.stop q (hs q hq), fun q hq => a.start q (hs q hq),
    fun q hq => a.pt q (hs q hq), fun q hq => a.load q (hs q hq), fun q hq => a.head q (hs q hq), fun q hq => a.tm q (hs q hq)⟩

theorem trans {c'' : Core} (a : SameT E R c c') (b : SameT E R c' c'') : SameT E R c c'' := by
  have hr : ∀ q, R q → (c'.route q).stops = (c.route q).stops := fun q hq => by rw [a.route q hq]
  refine ⟨a.nStop.trans b.nStop, a.nPt.trans b.nPt, a.nRoute.trans b.nRoute, fun q hq => (b.route q hq).trans (a.route q hq),
    ?_, ?_, ?_, ?_, ?_, ?_⟩
  · intro q hq s hs
    have h1 := b.stop q hq s (by rw [hr q hq]; exact hs)
    have h2 := a.stop q hq s hs
    rw [h1, h2]
  · intro q hq s hs
    rw [b.start q hq s (by rw [hr q hq]; exact hs), a.start q hq s hs]
  · intro q hq s hs p hp
    rw [b.pt q hq s (by rw [hr q hq]; exact hs) p (by unfold ptsAt at *; rw [a.stop q hq s hs]; exact hp), a.pt q hq s hs p hp]
  · intro q hq s hs
    rw [b.load q hq s (by rw [hr q hq]; exact hs), a.load q hq s hs]
  · intro q hq s hs hh
    rw [b.head q hq s (by rw [hr q hq]; exact hs) (by rw [hr q hq]; exact hh), a.head q hq s hs hh]
  · intro q hq s hs
    have h1 := b.tm q hq s (by rw [hr q hq]; exact hs)
    have h2 := a.tm q hq s hs
    exact ⟨h1.1.trans h2.1, h1.2.trans h2.2⟩

theorem serve (a : SameT E R c c') {q s : Nat} (hq : R q) (hs : s ∈ (c.route q).stops) : SameServe c c' s := by
  have h1 := a.stop q hq s hs
  refine ⟨by rw [h1], ?_, ?_, by rw [h1]⟩
  · show ((c'.stop s).pickups.map fun p => (c'.pt p).trip) = (c.stop s).pickups.map fun p => (c.pt p).trip
    rw [h1]
    exact List.map_congr_left fun p hp => by rw [a.pt q hq s hs p (List.mem_append_left _ hp)]
  · show ((c'.stop s).deliveries.map fun p => (c'.pt p).trip) = (c.stop s).deliveries.map fun p => (c.pt p).trip
    rw [h1]
    exact List.map_congr_left fun p hp => by rw [a.pt q hq s hs p (List.mem_append_right _ hp)]

theorem wf (a : SameT E R c c') {q : Nat} (hq : R q) (hw : WellFormed c q) : WellFormed c' q := by
  refine hw.congr (a.route q hq) a.nStop a.nPt a.nRoute (fun s hs => by rw [a.stop q hq s hs]; simp) ?_
  intro p hp
  obtain ⟨s, hs, hps⟩ := List.mem_flatMap.1 hp
  exact a.pt q hq s hs p (List.mem_append_left _ hps)

theorem planned (a : SameT E R c c') {q : Nat} (hq : R q) : routePlannedTrips c' q = routePlannedTrips c q := by
  unfold routePlannedTrips
  rw [a.route q hq]
  exact List.flatMap_congr fun s hs => by rw [a.stop q hq s hs]

theorem stopV_eq (a : SameT E R c c') {q s : Nat} (hq : R q) (hw : WellFormed c q) (hs : s ∈ (c.route q).stops) :
    stopV E c' s = stopV E c s := by
  by_cases hn : s ∈ (c.route q).stops.tail
  · exact stopV_congr (a.serve hq hs) (a.tm q hq s hn).1 (a.load q hq s hs)
  · -- the first stop serves nobody: no window
    have hd : (c.route q).stops.head? = some s := by
      cases hl : (c.route q).stops with
      | nil => rw [hl] at hs; simp at hs
      | cons x l => rw [hl] at hs hn; simp at hs hn; simpa [hn, eq_comm] using hs
    have h1 := hw.depot s hd
    have hl : stopLatest E c s = .inf := by simp [stopLatest, h1.1, h1.2, minBound]
    rw [Bool.eq_iff_iff, stopV_iff, stopV_iff, stopLatest_congr (a.serve hq hs), hl, a.load q hq s hs, (a.serve hq hs).vehicle]
    simp [Bound.addQ, Bound.leQ]

theorem loadOK' (a : SameT E R c c') {q s : Nat} (hq : R q) (hw : WellFormed c q) (hs : s ∈ (c.route q).stops)
    (h : loadOK E c s) : loadOK E c' s :=
  h.congr (a.serve hq hs) (a.load q hq s hs) (asapAt_serve hw.toChained (a.wf hq hw).toChained (by rw [a.route q hq])
    (fun _ hx => a.serve hq hx) hs)

theorem ptVerdict (a : SameT E R c c') {md : Mode} {q p : Nat} {b : Bool} (hq : R q) (hw : WellFormed c q)
    (hp : p ∈ routePlannedTrips c q) (hv : PtVerdict E md c p b) : PtVerdict E md c' p b := by
  obtain ⟨u, d, pre, mid, suf, e, hu, hd, hpu, hpd⟩ := hw.stops_of hp
  have hus : u ∈ (c.route q).stops := by rw [e]; simp
  have hds : d ∈ (c.route q).stops := by rw [e]; simp
  have tail : ∀ s ∈ (c.route q).stops, ptsAt c s ≠ [] → s ∈ (c.route q).stops.tail := by
    intro s hs hne
    cases hl : (c.route q).stops with
    | nil => rw [hl] at hs; simp at hs
    | cons x l =>
      rw [hl] at hs
      rcases List.mem_cons.1 hs with rfl | hs
      · have := hw.depot s (by rw [hl]; rfl)
        exact absurd (by simp [ptsAt, this.1, this.2]) hne
      · exact hs
  have tu := a.tm q hq u (tail u hus (List.ne_nil_of_mem (List.mem_append_left _ hpu)))
  have td := a.tm q hq d (tail d hds (List.ne_nil_of_mem (List.mem_append_right _ hpd)))
  have hpp := a.pt q hq u hus p (List.mem_append_left _ hpu)
  refine hv.congr hu hd hpp (a.loadOK' hq hw hus) (a.loadOK' hq hw hds) ?_ (fun _ => a.stopV_eq hq hw hus) (fun _ => a.stopV_eq hq hw hds)
  unfold rideV ptTrip
  rw [tu.2, td.1, hpp]

theorem ends (a : SameT E R c c') {q : Nat} (hq : R q) (hw : WellFormed c q) : endsV E c' q = endsV E c q := by
  obtain ⟨f, l, hf, hl⟩ := hw.ends
  have hfs := List.mem_of_mem_head? hf
  have hls := List.mem_of_getLast? hl
  have hlt : l ∈ (c.route q).stops.tail := by
    have hlen := hw.length
    cases hL : (c.route q).stops with
    | nil => rw [hL] at hlen; simp at hlen
    | cons x t =>
      cases t with
      | nil => rw [hL] at hlen; simp at hlen
      | cons y t =>
        rw [hL, List.getLast?_cons_cons] at hl
        exact List.mem_of_getLast? hl
  unfold endsV
  rw [a.route q hq, hf, hl]
  simp only
  rw [(a.serve hq hfs).pos, (a.serve hq hls).pos, a.head q hq f hfs hf, (a.tm q hq l hlt).2]

end SameT

/-- Verdicts carry over when the family is the same in this sense. -/
theorem VerdictsOK.transfer {R : Nat → Prop} {md : Mode} {h h' : Heap} (ok : VerdictsOK E md R h)
    (hw : ∀ q, R q → WellFormed h.core q) (a : SameT E R h.core h'.core)
    (hr : ∀ q, R q → h'.rfeas q = h.rfeas q ∨ h'.rfeas q = none)
    (hs : ∀ q, R q → ∀ s ∈ (h.core.route q).stops, h'.sfeas s = h.sfeas s ∨ h'.sfeas s = none)
    (hp : ∀ q, R q → ∀ s ∈ (h.core.route q).stops, ∀ p ∈ ptsAt h.core s, h'.pfeas p = h.pfeas p ∨ h'.pfeas p = none) :
    VerdictsOK E md R h' := by
  refine ⟨?_, ?_, ?_⟩
  · intro q hq b hb
    rcases hr q hq with e | e
    · rw [e] at hb
      have := ok.route q hq b hb
      exact ⟨fun hm h0 => by rw [a.ends hq (hw q hq)]; exact this.ends hm h0, fun h0 p hpm =>
        a.ptVerdict hq (hw q hq) (by rw [← a.planned hq]; exact hpm) (this.trips h0 p (by rw [← a.planned hq]; exact hpm))⟩
    · rw [e] at hb; cases hb
  · intro q hq s hsm b hb
    rw [a.route q hq] at hsm
    rcases hs q hq s hsm with e | e
    · rw [e] at hb
      have := ok.stop q hq s hsm b hb
      exact ⟨fun hm h0 => a.loadOK' hq (hw q hq) hsm (this.load hm h0), fun hx => by rw [a.stopV_eq hq (hw q hq) hsm]; exact this.full hx⟩
    · rw [e] at hb; cases hb
  · intro q hq p hpm b hb
    rw [a.planned hq] at hpm
    obtain ⟨u, hus, hpu⟩ := List.mem_flatMap.1 hpm
    rcases hp q hq u hus p (List.mem_append_left _ hpu) with e1 | e1
    · rw [e1] at hb
      exact a.ptVerdict hq (hw q hq) hpm (ok.pt q hq p hpm b hb)
    · rw [e1] at hb; cases hb

theorem Keeps.verdictsOK {R : Nat → Prop} {md : Mode} {h h' : Heap} (k : Keeps R h h') (ok : RoutesOK E R h)
    (hv : VerdictsOK E md R h) : VerdictsOK E md R h' :=
  hv.transfer ok.wf (SameT.of_core k.core ok.wf) k.rfeas k.sfeas k.pfeas

end Jinete
