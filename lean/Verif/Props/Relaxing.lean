import Verif.Spec.Relaxed
import Verif.Props.Timings

/-!
# C137: easier problems
-/

set_option autoImplicit false

namespace Jinete

variable {E E' : Env}

theorem Bound.leQ_trans {a b : Bound} (h : a.le b = true) {x : ℚ} (hx : a.leQ x = true) : b.leQ x = true := by
  cases a <;> cases b <;> simp_all [Bound.le, Bound.leQ]
  linarith

theorem Bound.le_addQ {a b : Bound} (h : a.le b = true) {p q : ℚ} (hpq : p ≤ q) : (a.addQ p).le (b.addQ q) = true := by
  cases a <;> cases b <;> simp_all [Bound.le, Bound.leQ, Bound.addQ]
  linarith

theorem Bound.le_add {a b a' b' : Bound} (h : a.le a' = true) (h' : b.le b' = true) : (a.add b).le (a'.add b') = true := by
  cases a <;> cases b <;> cases a' <;> cases b' <;> simp_all [Bound.le, Bound.leQ, Bound.add]
  linarith

theorem Bound.le_min {a b a' b' : Bound} (h : a.le a' = true) (h' : b.le b' = true) : (Bound.min a b).le (Bound.min a' b') = true := by
  cases a <;> cases b <;> cases a' <;> cases b' <;> simp_all [Bound.le, Bound.leQ, Bound.min] <;> (try split) <;> (try split) <;> linarith

namespace Relaxed

variable (k : Relaxed E E')
include k

theorem directTime (t : Nat) : (E'.trip t).directTime E'.metric ≤ (E.trip t).directTime E.metric := by
  unfold Trip.directTime
  rw [(k.origin t).position, (k.destination t).position]
  exact k.metric _ _

theorem originEarliest (t : Nat) : (E'.trip t).originEarliest ≤ (E.trip t).originEarliest := by
  have h1 := (k.origin t).earliest
  have h2 := (k.destination t).earliest
  have h3 := k.ride t
  unfold Trip.originEarliest
  rw [(k.destination t).duration]
  cases h : (E.trip t).timeout <;> cases h' : (E'.trip t).timeout <;> rw [h, h'] at h3 <;> simp only [Bound.le, Bound.leQ, decide_eq_true_eq] at h3
  · exact max_le_max (by linarith) h1
  · exact le_trans h1 (le_max_right _ _)
  · cases h3
  · exact h1

theorem destinationEarliest (t : Nat) : (E'.trip t).destinationEarliest E'.metric ≤ (E.trip t).destinationEarliest E.metric := by
  have h1 := (k.origin t).earliest
  have h2 := k.directTime t
  unfold Trip.destinationEarliest
  rw [(k.origin t).duration]
  exact max_le_max (by linarith) (k.destination t).earliest

theorem originLatest (t : Nat) : ((E.trip t).originLatest E.metric).le ((E'.trip t).originLatest E'.metric) = true := by
  have h2 := k.directTime t
  unfold Trip.originLatest Bound.subQ
  rw [(k.destination t).duration]
  exact Bound.le_min (Bound.le_addQ (Bound.le_addQ (k.destination t).latest le_rfl) (by linarith)) (k.origin t).latest

theorem destinationLatest (t : Nat) : (E.trip t).destinationLatest.le (E'.trip t).destinationLatest = true := by
  unfold Trip.destinationLatest
  rw [(k.origin t).duration]
  exact Bound.le_min (Bound.le_add (Bound.le_addQ (k.origin t).latest le_rfl) (k.ride t)) (k.destination t).latest

theorem earliest (v : Visit) : v.earliest E' ≤ v.earliest E := by
  unfold Visit.earliest
  by_cases h : v.picks = [] ∧ v.drops = []
  · simp [h.1, h.2]
  · rw [maxD_le_iff (by simpa using h)]
    intro y hy
    simp only [List.mem_append, List.mem_map] at hy
    rcases hy with ⟨t, ht, rfl⟩ | ⟨t, ht, rfl⟩
    · exact le_trans (k.originEarliest t) (le_maxD (List.mem_append.2 (.inl (List.mem_map.2 ⟨t, ht, rfl⟩))))
    · exact le_trans (k.destinationEarliest t) (le_maxD (List.mem_append.2 (.inr (List.mem_map.2 ⟨t, ht, rfl⟩))))

theorem loadTime (v : Visit) : v.loadTime E' = v.loadTime E := by
  unfold Visit.loadTime
  simp only [(k.origin _).duration, (k.destination _).duration]

theorem loads (l : List Visit) : ∀ q : ℚ, Jinete.loads E' q l = Jinete.loads E q l := by
  induction l with
  | nil => intros; rfl
  | cons v l ih => intro q; simp only [Jinete.loads, ih, tripsCapacity, k.load]

theorem drives : ∀ {l : List Visit} {ts : List Tm} {t t' : ℚ} {p : Pos}, t' ≤ t → Drives E t p l ts → Drives E' t' p l ts
  | [], [], _, _, _, _, _ => trivial
  | v :: l, x :: ts, t, t', p, ht, ⟨⟨h1, h2, h3, h4⟩, h⟩ =>
    ⟨⟨by linarith [k.metric p v.pos], h2, le_trans (k.earliest v) h3, by rw [k.loadTime]; exact h4⟩, drives le_rfl h⟩

theorem tripOK {v t : Nat} {x y : Tm} {q q' : ℚ} (h : TripOK E (E.vehicle v) t x y q q') : TripOK E' (E'.vehicle v) t x y q q' where
  pickEarliest := le_trans (k.originEarliest t) h.pickEarliest
  pickLatest := Bound.leQ_trans (Bound.le_addQ (k.originLatest t) le_rfl) h.pickLatest
  dropEarliest := le_trans (k.destinationEarliest t) h.dropEarliest
  dropLatest := Bound.leQ_trans (Bound.le_addQ (k.destinationLatest t) le_rfl) h.dropLatest
  pickLoad := by linarith [h.pickLoad, k.capacity v]
  dropLoad := by linarith [h.dropLoad, k.capacity v]
  ride := Bound.leQ_trans (Bound.le_addQ (k.ride t) le_rfl) h.ride

end Relaxed

/-- **C137, timings.** Whatever can be driven can be driven at the same times in an easier problem, and the schedule of the visits there
reaches, serves and leaves none of them later. -/
theorem C137_same_times (k : Relaxed E E') (v : Nat) (l : List Visit) (ts : List Tm) (h : FeasibleTiming E (E.vehicle v) l ts) :
    FeasibleTiming E' (E'.vehicle v) l ts ∧
    (Honours l ts → ∀ (i : Nat) (x y : Tm), (vehicleTimetable E' (E'.vehicle v) l)[i]? = some x → ts[i]? = some y →
      x.arr ≤ y.arr ∧ x.start ≤ y.start ∧ x.dep ≤ y.dep) := by
  have hd : Drives E' (E'.vehicle v).origin.earliest (E'.vehicle v).origin.position l ts := by
    rw [(k.start v).position]
    exact k.drives (k.start v).earliest h.drives
  refine ⟨⟨hd, ?_, ?_, ?_, ?_, ?_⟩, fun hh => (C132_no_timing_is_earlier hh hd).2.2.2⟩
  · rw [(k.start v).position]; exact h.startPos
  · rw [(k.finish v).position]; exact h.endPos
  · exact fun y hy => Bound.leQ_trans (Bound.le_addQ (k.finish v).latest le_rfl) (h.endTime y hy)
  · exact fun x hx y hy => Bound.leQ_trans (Bound.le_addQ (k.tour v) le_rfl) (h.duration x hx y hy)
  · intro i j u w x y q q' t hu hw hx hy hq hq' ht ht'
    rw [k.loads] at hq hq'
    exact k.tripOK (h.trips i j u w x y q q' t hu hw hx hy hq hq' ht ht')

/-- The full claim: a route that is accepted is accepted with the same visits in an easier problem. -/
def RelaxingKeepsFeasible : Prop :=
  ∀ E E' : Env, Relaxed E E' → EnvOK E → EnvOK E' → ∀ (h h' : Heap) (r r' : Nat), WellFormed h.core r → CachesAgree E h r → NoVerdicts h r →
    WellFormed h'.core r' → CachesAgree E' h' r' → NoVerdicts h' r' → (h'.core.route r').vehicle = (h.core.route r).vehicle →
    itinerary h'.core r' = itinerary h.core r → (routeFeasible E r h).1 = .ok true → (routeFeasible E' r' h').1 = .ok true

/-- **C137, verdicts.** The claim if the schedule of the easier problem does not wait during rides of limited length, nor after the
first stop if the duration of the tour is limited; in particular without such limits. What is missing: there such waits get the route
rejected (`C137_longer_ride_allowed`). -/
theorem C137_relaxing_keeps_feasible_partial (k : Relaxed E E') (hE : EnvOK E) (hE' : EnvOK E') (h h' : Heap) (r r' : Nat)
    (hw : WellFormed h.core r) (ha : CachesAgree E h r) (hn : NoVerdicts h r) (hw' : WellFormed h'.core r') (ha' : CachesAgree E' h' r')
    (hn' : NoVerdicts h' r') (hv : (h'.core.route r').vehicle = (h.core.route r).vehicle) (hi : itinerary h'.core r' = itinerary h.core r)
    (hW : WaitsOutside E' (E'.vehicle (h'.core.route r').vehicle) (itinerary h'.core r')) (hf : (routeFeasible E r h).1 = .ok true) :
    (routeFeasible E' r' h').1 = .ok true := by
  have h1 := C132_accepted_can_be_driven hE h r hw ha hn hf
  obtain ⟨b, e, hb⟩ := C132_rejections_final_partial hE' h' r' hw' ha' hn' hW
  rw [e]
  rw [hv, hi] at hb
  exact congrArg _ (hb.2 ⟨_, (C137_same_times k _ _ _ h1).1, timetable_honours _ _ _⟩)

/-! ## Witness -/

/-- Trip 1 must not be on board for longer than `m` and cannot be dropped before 60; trip 2 must not be on board for longer than 10; trip 3
is ready at 20. -/
def patientEnv (m : ℚ) : Env where
  metric := fun a b => manhattan a b
  trip := fun t => if t = 0 then { origin := { position := [1] }, destination := { position := [9] } }
    else if t = 1 then { origin := { position := [2] }, destination := { position := [8], earliest := 60 }, timeout := .fin m }
    else if t = 2 then { origin := { position := [3] }, destination := { position := [7] }, timeout := .fin 10 }
    else { origin := { position := [4], earliest := 20 }, destination := { position := [6] } }
  vehicle := fun _ => { origin := { position := [0] }, capacity := 4 }

theorem patientEnv_ok (m : ℚ) : EnvOK (patientEnv m) where
  metric := fun a b => manhattan_nonneg a b
  originDuration := by intro t; simp only [patientEnv]; split_ifs <;> simp
  destinationDuration := by intro t; simp only [patientEnv]; split_ifs <;> simp
  capacity := by intro t; simp only [patientEnv]; split_ifs <;> simp

theorem Service.Wider.refl (s : Service) : s.Wider s where
  position := rfl
  duration := rfl
  earliest := le_rfl
  latest := by cases s.latest <;> simp [Bound.le, Bound.leQ]

theorem Bound.le_self (b : Bound) : b.le b = true := by cases b <;> simp [Bound.le, Bound.leQ]

theorem patient_relaxed {m m' : ℚ} (h : m ≤ m') : Relaxed (patientEnv m) (patientEnv m') where
  metric := fun _ _ => le_rfl
  origin := by intro t; simp only [patientEnv]; split_ifs <;> exact Service.Wider.refl _
  destination := by intro t; simp only [patientEnv]; split_ifs <;> exact Service.Wider.refl _
  load := by intro t; simp only [patientEnv]; split_ifs <;> rfl
  ride := by intro t; simp only [patientEnv]; split_ifs <;> first | exact Bound.le_self _ | simpa [Bound.le, Bound.leQ] using h
  start := fun _ => Service.Wider.refl _
  finish := fun _ => Service.Wider.refl _
  capacity := fun _ => le_rfl
  tour := fun _ => rfl

/-- The route 0 → pick 0 → pick 1 → pick 2 → pick 3 → drop 3 → drop 2 → drop 1 → drop 0 → 0, built by the insertion strategy for a limit
of 40. -/
def patientBuild : M Nat := do
  let r ← newRoute (patientEnv 40) 0
  let rs ← compute (patientEnv 40) true r [0] 0 1
  let r1 ← Py.index rs 0
  let rs ← compute (patientEnv 40) true r1 [1] 1 2
  let r2 ← Py.index rs 0
  let rs ← compute (patientEnv 40) true r2 [2] 2 3
  let r3 ← Py.index rs 0
  let rs ← compute (patientEnv 40) true r3 [3] 3 4
  Py.index rs 0

/-- The stops of that route, before anything is asked. -/
def patientHeap : Heap where
  core := (patientBuild Heap.empty).2.core
  arr := fun _ => none
  dep := fun _ => none
  cap := fun _ => none
  sfeas := fun _ => none
  pfeas := fun _ => none
  rfeas := fun _ => none

theorem patient_ok : (patientBuild Heap.empty).1 = .ok 4 ∧ WellFormed patientHeap.core 4 :=
  ⟨by decide +kernel, wfB_sound (by decide +kernel)⟩

theorem patient_unasked : NoVerdicts patientHeap 4 := ⟨rfl, fun _ _ => rfl, fun _ _ _ _ => rfl⟩

theorem patient_verdict40 : (routeFeasible (patientEnv 40) 4 patientHeap).1 = .ok true := by decide +kernel

theorem patient_verdict100 : (routeFeasible (patientEnv 100) 4 patientHeap).1 = .ok false := by decide +kernel

/-- `RelaxingKeepsFeasible` is false: allowing the second passenger a ride of 100 instead of 40 moves their pickup from 20 to 2, the third
passenger is picked up at 3 instead of 21, waits on board for the fourth, and is on board for too long. -/
theorem C137_longer_ride_allowed : ¬ RelaxingKeepsFeasible := by
  intro claim
  have := claim (patientEnv 40) (patientEnv 100) (patient_relaxed (by norm_num)) (patientEnv_ok _) (patientEnv_ok _) patientHeap patientHeap
    4 4 patient_ok.2 (agreeB_sound (by decide +kernel)) patient_unasked patient_ok.2 (agreeB_sound (by decide +kernel)) patient_unasked rfl rfl
    patient_verdict40
  rw [patient_verdict100] at this
  cases this

/-- The demo problem at double speed, with a larger vehicle. -/
def fastEnv : Env :=
  { demoEnv with
    metric := fun a b => manhattan a b / 2
    vehicle := fun _ => { origin := { position := [0] }, capacity := 5 } }

theorem fast_relaxed : Relaxed demoEnv fastEnv where
  metric := fun a b => by have := manhattan_nonneg a b; simp only [fastEnv, demoEnv]; linarith
  origin := fun _ => Service.Wider.refl _
  destination := fun _ => Service.Wider.refl _
  load := fun _ => rfl
  ride := fun _ => Bound.le_self _
  start := fun _ => Service.Wider.refl _
  finish := fun _ => Service.Wider.refl _
  capacity := fun _ => by simp only [fastEnv, demoEnv]; norm_num
  tour := fun _ => rfl

theorem fastEnv_ok : EnvOK fastEnv where
  metric := fun a b => by have := manhattan_nonneg a b; simp only [fastEnv]; linarith
  originDuration := demoEnv_ok.originDuration
  destinationDuration := demoEnv_ok.destinationDuration
  capacity := demoEnv_ok.capacity

/-- The stops of the demo route, before anything is asked. -/
def demoQuiet : Heap := { patientHeap with core := demoHeap.core }

theorem demoQuiet_unasked : NoVerdicts demoQuiet 2 := ⟨rfl, fun _ _ => rfl, fun _ _ _ _ => rfl⟩

theorem demoQuiet_wf : WellFormed demoQuiet.core 2 := wfB_sound (by decide +kernel)

theorem demoQuiet_accepted : (routeFeasible demoEnv 2 demoQuiet).1 = .ok true := by decide +kernel

theorem fast_unlimited : WaitsOutside fastEnv (fastEnv.vehicle (demoQuiet.core.route 2).vehicle) (itinerary demoQuiet.core 2) :=
  waitsOutside_unlimited (by intro t; simp only [fastEnv, demoEnv]; split <;> rfl) (by unfold fastEnv; rfl)

/-- The demo route is accepted at double speed too. -/
example : (routeFeasible fastEnv 2 demoQuiet).1 = .ok true :=
  C137_relaxing_keeps_feasible_partial fast_relaxed demoEnv_ok fastEnv_ok demoQuiet demoQuiet 2 2 demoQuiet_wf (agreeB_sound (by decide +kernel))
    demoQuiet_unasked demoQuiet_wf (agreeB_sound (by decide +kernel)) demoQuiet_unasked rfl rfl fast_unlimited demoQuiet_accepted

end Jinete
