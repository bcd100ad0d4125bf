import Verif.Props.Feasible
import Verif.Proofs.Integral

/-!
# C116, C117, C118: floating point

The verdict of a route when every addition and subtraction is rounded.
-/

set_option autoImplicit false

namespace Jinete

variable {E : Env} {c : Core} {r : Nat} {K : Reckoning}

/-! ## C116 -/

/-- **C116.** However numbers are rounded, as long as rounding keeps the order: on a well formed route the computed times do not
run backwards along the route, no waiting time is negative, none of the assertions of `Stop.waiting_time`, `Stop.capacity` and
`PlannedTrip.feasible` fails, and `Route.feasible` returns a verdict. -/
theorem C116_rounded_times_in_order (hK : K.Sane E) (hE : EnvOK E) (hw : WellFormed c r) (hq : K.Requests c r) :
    (∀ s ∈ (c.route r).stops, ∃ x w, K.timesOf E c s = .ok x ∧ x.arr ≤ x.start ∧ x.start ≤ x.dep ∧
      K.waitingTime E c s = .ok w ∧ 0 ≤ w) ∧
    (∀ (i j s s' : Nat) (x y : StopTimes), i < j → (c.route r).stops[i]? = some s → (c.route r).stops[j]? = some s' →
      K.timesOf E c s = .ok x → K.timesOf E c s' = .ok y → x.dep ≤ y.arr) ∧
    (∀ p ∈ routePlannedTrips c r, ∃ b, K.tripFeasible E c p = .ok b) ∧
    ∃ b, K.routeFeasible E c r = .ok b := by
  refine ⟨?_, ?_, ?_, ?_⟩
  · intro s hs
    obtain ⟨w, h0, e⟩ := Reckoning.waitingTime_eq hK hE hw hq hs
    have h := hK.at hE hw.toChained hq hs
    exact ⟨_, w, Reckoning.timesOf_at hw.toChained hs, h.1, h.2.2.1, e, h0⟩
  · intro i j s s' x y hij hi hj hx hy
    obtain ⟨pre, suf, e, rfl⟩ := split_at hi
    have hsuf : suf[j - pre.length - 1]? = some s' := by
      rw [e, List.getElem?_append_right (by omega)] at hj
      rw [show j - pre.length = (j - pre.length - 1) + 1 by omega] at hj
      simpa using hj
    obtain ⟨mid, suf', e', _⟩ := split_at hsuf
    have h := hK.dep_le_arr hE hw.toChained hq (pre := pre) (u := s) (mid := mid) (d := s') (suf := suf') (by rw [e, e'])
    rw [Reckoning.timesOf_at hw.toChained (List.mem_of_getElem? hi)] at hx
    rw [Reckoning.timesOf_at hw.toChained (List.mem_of_getElem? hj)] at hy
    cases hx; cases hy
    exact h
  · intro p hp
    exact ⟨_, Reckoning.tripFeasible_eq hK hE hw hq hp⟩
  · obtain ⟨f, l, hf, hl⟩ := hw.ends
    exact ⟨_, Reckoning.routeFeasible_eq hK hE hw hq hf hl⟩

/-! ## C117 -/

/-- How far a verdict on a route of `n` stops may be off, when additions are off by `ε` and distances by `δ`. -/
def slack (n : Nat) (ε δ : ℚ) : ℚ := (2 * n + 3) * (2 * ε + δ)

/-- **C117.** When rounding changes numbers by at most `ε`, and computed distances are off by at most `δ`, the verdict on a route
of `n` stops is that of the exact constraints up to `slack n ε δ`: an accepted route meets the exact constraints with a tolerance
enlarged by that much, and a route that meets them with a tolerance smaller by that much is accepted. -/
theorem C117_rounded_verdict {place : Pos → Prop} {H ε δ : ℚ} (hK : K.Sane E) (hC : K.Close E place H ε δ) (hE : EnvOK E)
    (hw : WellFormed c r) (hq : K.Requests c r) (hpl : ∀ s ∈ (c.route r).stops, place (c.stop s).position)
    (hd : ∀ y ∈ (routeTimetable E c r).getLast?, y.dep ≤ H / 4) (hs : slack (c.route r).stops.length ε δ ≤ H / 8) :
    ∃ b, K.routeFeasible E c r = .ok b ∧
      (b = true → FeasibleWithin E (1 / 1000 + slack (c.route r).stops.length ε δ) (E.vehicle (c.route r).vehicle) (itinerary c r)) ∧
      ∀ τ, τ + slack (c.route r).stops.length ε δ ≤ 1 / 1000 →
        FeasibleWithin E τ (E.vehicle (c.route r).vehicle) (itinerary c r) → b = true :=
  hC.verdict hE hw hs hd hpl hK hq

/-- Without rounding the verdict is that of C18. -/
theorem C117_exact (hE : EnvOK E) (hw : WellFormed c r) {place : Pos → Prop} {H : ℚ} (h1 : 1 ≤ H) (hS : E.Small E.metric place (H / 8))
    (hpl : ∀ s ∈ (c.route r).stops, place (c.stop s).position) (hd : ∀ y ∈ (routeTimetable E c r).getLast?, y.dep ≤ H / 4) :
    ∃ b, Reckoning.routeFeasible ⟨id, E.metric⟩ E c r = .ok b ∧
      (b = true ↔ FeasibleItinerary E (E.vehicle (c.route r).vehicle) (itinerary c r)) := by
  have hK : Reckoning.Sane ⟨id, E.metric⟩ E := ⟨fun _ _ h => h, fun _ => rfl, rfl, hE.metric, fun _ => rfl, fun _ => rfl, fun _ => rfl⟩
  have hC : Reckoning.Close ⟨id, E.metric⟩ E place H 0 0 :=
    { toSmall := hS, error := fun q _ => by simp, dist := fun a b _ _ => by simp, one := h1, small := by linarith }
  obtain ⟨b, e, h2, h3⟩ := C117_rounded_verdict hK hC hE hw (fun _ _ _ _ => rfl) hpl hd (by simp only [slack]; linarith)
  refine ⟨b, e, fun h => feasibleWithin_iff.1 ?_, fun h => h3 errorBound (by simp [slack, errorBound]) (feasibleWithin_iff.2 h)⟩
  have := h2 h
  simpa [slack, errorBound] using this

/-! ## C118 -/

/-- A double: 53 binary digits and an exponent. -/
def IsDouble (q : ℚ) : Prop := ∃ m k : ℤ, |m| < 2 ^ 53 ∧ q = m * 2 ^ k

/-- **C118**, rounding: the result is a double, no double is nearer, doubles are kept, order and sign are kept, and the relative
error is at most `2⁻⁵³`. -/
theorem C118_round_double :
    (∀ q, IsDouble (roundDouble q)) ∧ (∀ q x, IsDouble x → |roundDouble q - q| ≤ |x - q|) ∧ (∀ q, IsDouble q → roundDouble q = q) ∧
    (∀ a b, a ≤ b → roundDouble a ≤ roundDouble b) ∧ (∀ q, roundDouble (-q) = -roundDouble q) ∧
    ∀ q, |roundDouble q - q| ≤ |q| / 2 ^ 53 := by
  refine ⟨roundDouble_repr, ?_, ?_, fun _ _ => roundDouble_mono, roundDouble_neg, roundDouble_rel⟩
  · rintro q x ⟨m, k, hm, rfl⟩; exact roundDouble_nearest q hm k
  · rintro q ⟨m, k, hm, rfl⟩; exact roundDouble_exact hm k

/-- Ties go to the even digit, and other numbers to the nearer double. -/
example : roundDouble (2 ^ 53 + 1) = 2 ^ 53 ∧ roundDouble (2 ^ 53 + 3) = 2 ^ 53 + 4 ∧ roundDouble (1 / 2) = 1 / 2 ∧
    roundDouble (1 / 10) = 3602879701896397 / 2 ^ 55 ∧ roundDouble (-1 / 10) ≠ -1 / 10 := by decide +kernel

/-- The opening times of a problem are doubles. -/
structure Env.Doubles (E : Env) : Prop where
  vehicle : ∀ v, IsDouble (E.vehicle v).origin.earliest
  origin : ∀ t, IsDouble (E.trip t).origin.earliest
  destination : ∀ t, IsDouble (E.trip t).destination.earliest

theorem doubles_sane {dist : Pos → Pos → ℚ} (hE : E.Doubles) (hd : ∀ a b, 0 ≤ dist a b) : (doubles dist).Sane E where
  mono := fun _ _ => roundDouble_mono
  idem := roundDouble_idem
  zero := roundDouble_zero
  dist := hd
  vehicle := fun v => C118_round_double.2.2.1 _ (hE.vehicle v)
  origin := fun v => C118_round_double.2.2.1 _ (hE.origin v)
  destination := fun v => C118_round_double.2.2.1 _ (hE.destination v)

theorem doubles_close {dist : Pos → Pos → ℚ} {place : Pos → Prop} {H δ : ℚ} (hS : E.Small dist place (H / 8)) (h1 : 1 ≤ H)
    (hd : ∀ a b, place a → place b → |dist a b - E.metric a b| ≤ δ) : (doubles dist).Close E place H (H / 2 ^ 53) δ where
  toSmall := hS
  error := fun q hq => le_trans (roundDouble_rel q) (div_le_div_of_nonneg_right hq (by norm_num))
  dist := hd
  one := h1
  small := div_le_div_of_nonneg_left (by linarith) (by norm_num) (by norm_num)

theorem slack_doubles {n : Nat} {H : ℚ} (hn : 1000 * (2 * n + 3) * H ≤ 2 ^ 52) : slack n (H / 2 ^ 53) 0 ≤ 1 / 1000 := by
  unfold slack
  have e : (2 * (n : ℚ) + 3) * (2 * (H / 2 ^ 53) + 0) = (1000 * (2 * n + 3) * H) / (1000 * 2 ^ 52) := by ring
  rw [e]
  refine le_trans (div_le_div_of_nonneg_right hn (by norm_num)) ?_
  norm_num

/-- **C118**, verdict: with doubles and distances computed exactly, on routes whose length and times are in range
(`1000 (2 n + 3) H ≤ 2⁵²`, which allows a million stops with times up to 2²⁰), a route is accepted only if it meets
the exact constraints up to twice `ERROR_BOUND`, and every route that meets them without any tolerance is accepted. -/
theorem C118_double_verdict {dist : Pos → Pos → ℚ} {place : Pos → Prop} {H : ℚ} (hE : EnvOK E) (hw : WellFormed c r) (hD : E.Doubles)
    (hq : ∀ s ∈ (c.route r).stops, ∀ q ∈ (c.stop s).start, IsDouble q) (h0 : ∀ a b, 0 ≤ dist a b)
    (hdist : ∀ a b, place a → place b → dist a b = E.metric a b) (hS : E.Small dist place (H / 8)) (h1 : 1 ≤ H)
    (hpl : ∀ s ∈ (c.route r).stops, place (c.stop s).position) (hd : ∀ y ∈ (routeTimetable E c r).getLast?, y.dep ≤ H / 4)
    (hn : 1000 * (2 * ((c.route r).stops.length : ℚ) + 3) * H ≤ 2 ^ 52) :
    ∃ b, (doubles dist).routeFeasible E c r = .ok b ∧
      (b = true → FeasibleWithin E (2 * errorBound) (E.vehicle (c.route r).vehicle) (itinerary c r)) ∧
      (FeasibleWithin E 0 (E.vehicle (c.route r).vehicle) (itinerary c r) → b = true) := by
  have hs := slack_doubles hn
  obtain ⟨b, e, h2, h3⟩ := C117_rounded_verdict (doubles_sane hD h0)
    (doubles_close hS h1 (δ := 0) fun a b ha hb => by rw [hdist a b ha hb, sub_self, abs_zero]) hE hw
    (fun s hs q hx => C118_round_double.2.2.1 _ (hq s hs q hx)) hpl hd (by linarith)
  exact ⟨b, e, fun h => (h2 h).mono (by unfold errorBound; linarith), fun h => h3 0 (by linarith) h⟩

theorem roundedDist_nonneg (a b : Pos) : 0 ≤ manhattanRounded roundDouble a b := by
  unfold manhattanRounded
  have : ∀ (l : List ℚ) (z : ℚ), 0 ≤ z → (∀ x ∈ l, 0 ≤ x) → 0 ≤ l.foldl (fun s x => roundDouble (s + x)) z := by
    intro l
    induction l with
    | nil => intro z hz _; exact hz
    | cons x l ih => intro z hz hl; exact ih _ (roundDouble_nonneg (add_nonneg hz (hl x (by simp)))) fun y hy => hl y (by simp [hy])
  refine this _ 0 le_rfl ?_
  intro x hx
  obtain ⟨p, _, rfl⟩ := List.mem_map.1 hx
  exact abs_nonneg _

/-- **C118**, integers: on a problem in integers with Manhattan distances (the second input format), the verdict computed in
doubles is the exact one. -/
theorem C118_integer_verdict {place : Pos → Prop} {H : ℚ} (hE : EnvOK E) (hw : WellFormed c r) (hm : E.metric = manhattan)
    (hI : E.Integral place) (hx : ∀ a, place a → ∀ x ∈ a, IsInt x)
    (hq : ∀ s ∈ (c.route r).stops, ∀ q ∈ (c.stop s).start, IsInt q ∧ |q| < 2 ^ 53) (hS : E.Small manhattan place (H / 8)) (h1 : 1 ≤ H)
    (hpl : ∀ s ∈ (c.route r).stops, place (c.stop s).position) (hd : ∀ y ∈ (routeTimetable E c r).getLast?, y.dep ≤ H / 4)
    (hn : 1000 * (2 * ((c.route r).stops.length : ℚ) + 3) * H ≤ 2 ^ 52) :
    ∃ b, (doubles (manhattanRounded roundDouble)).routeFeasible E c r = .ok b ∧
      (b = true ↔ FeasibleItinerary E (E.vehicle (c.route r).vehicle) (itinerary c r)) := by
  have hH : H < 2 ^ 50 := by
    have h2 : (0 : ℚ) ≤ ((c.route r).stops.length : ℚ) := Nat.cast_nonneg _
    have h3 : 0 ≤ ((c.route r).stops.length : ℚ) * H := mul_nonneg h2 (by linarith)
    have e : 1000 * (2 * ((c.route r).stops.length : ℚ) + 3) * H = 2000 * (((c.route r).stops.length : ℚ) * H) + 3000 * H := by ring
    rw [e] at hn
    norm_num at hn ⊢
    linarith
  have dbl : ∀ {q : ℚ}, IsInt q → |q| ≤ H / 8 → IsDouble q := by
    rintro q ⟨m, rfl⟩ h
    refine ⟨m, 0, ?_, by simp⟩
    have : |(m : ℚ)| < 2 ^ 53 := by norm_num at hH ⊢; linarith
    exact_mod_cast this
  have hdist : ∀ a b, place a → place b → manhattanRounded roundDouble a b = manhattan a b := by
    intro a b ha hb
    refine manhattanRounded_exact (hx a ha) (hx b hb) ?_
    have := le_trans (le_abs_self _) (hS.far a b ha hb)
    norm_num at hH ⊢; linarith
  have hD : E.Doubles := ⟨fun v => dbl (hI.start v).earliest (hS.start v).earliest, fun t => dbl (hI.origin t).earliest (hS.origin t).earliest,
    fun t => dbl (hI.destination t).earliest (hS.destination t).earliest⟩
  have hS' : E.Small (manhattanRounded roundDouble) place (H / 8) :=
    { hS with far := fun a b ha hb => by rw [hdist a b ha hb]; exact hS.far a b ha hb }
  obtain ⟨b, e, h2, h3⟩ := C118_double_verdict (c := c) (r := r) (place := place) (H := H) hE hw hD
    (fun s hs q hx => by
      obtain ⟨⟨m, rfl⟩, h⟩ := hq s hs q hx
      exact ⟨m, 0, by exact_mod_cast h, by simp⟩) roundedDist_nonneg (fun a b ha hb => by rw [hdist a b ha hb, hm]) hS' h1 hpl hd hn
  have hl : ∀ v ∈ itinerary c r, place v.pos ∧ ∀ q ∈ v.request, IsInt q := by
    intro v hv
    obtain ⟨s, hs, rfl⟩ := List.mem_map.1 hv
    exact ⟨hpl s hs, fun q hx => (hq s hs q hx).1⟩
  refine ⟨b, e, fun h => feasibleWithin_iff.1 ?_, fun h => h3 ?_⟩
  · exact ((h2 h).integral hI hS.ends (by norm_num [errorBound]) hS.depots hl).mono (by norm_num [errorBound])
  · exact (feasibleWithin_iff.2 h).integral hI hS.ends (by norm_num [errorBound]) hS.depots hl

/-! ## The demo route -/

/-- The positions of the demo problem. -/
def demoPlace (p : Pos) : Prop := p ∈ ([[0], [2], [4], [6], [8]] : List Pos)

theorem demoEnv_small : demoEnv.Small manhattan demoPlace (2 ^ 20 / 8) where
  far := by
    have : ∀ a ∈ ([[0], [2], [4], [6], [8]] : List Pos), ∀ b ∈ ([[0], [2], [4], [6], [8]] : List Pos), |manhattan a b| ≤ 2 ^ 20 / 8 := by
      decide +kernel
    exact fun a b ha hb => this a ha b hb
  depots := fun v => by simp [demoEnv, demoPlace]
  ends := fun t => by simp only [demoEnv, demoPlace]; split <;> simp
  origin := fun t => by
    simp only [demoEnv]; split <;> constructor <;> simp only [Bound.Within] <;> decide +kernel
  destination := fun t => by
    simp only [demoEnv]; split <;> constructor <;> simp only [Bound.Within] <;> decide +kernel
  timeout := fun t => by simp only [demoEnv]; split <;> trivial
  start := fun v => by simp only [demoEnv]; constructor <;> simp only [Bound.Within] <;> decide +kernel
  final := fun v => by
    simp only [demoEnv]; constructor <;> simp only [Bound.Within, Vehicle.destination, Option.getD_none] <;> decide +kernel
  shift := fun v => by simp only [demoEnv]; trivial
  room := fun v => by simp only [demoEnv]; decide +kernel

theorem isInt_of {q : ℚ} (h : q = (q.num : ℚ)) : IsInt q := ⟨_, h⟩

theorem demoEnv_integral : demoEnv.Integral demoPlace where
  metric := by
    have : ∀ a ∈ ([[0], [2], [4], [6], [8]] : List Pos), ∀ b ∈ ([[0], [2], [4], [6], [8]] : List Pos),
        manhattan a b = ((manhattan a b).num : ℚ) := by decide +kernel
    exact fun a b ha hb => ⟨_, this a ha b hb⟩
  origin := fun t => by
    simp only [demoEnv]; split <;> constructor <;> simp only [Bound.Integral] <;> refine isInt_of ?_ <;> decide +kernel
  destination := fun t => by
    simp only [demoEnv]; split <;> constructor <;> simp only [Bound.Integral] <;> refine isInt_of ?_ <;> decide +kernel
  timeout := fun t => by simp only [demoEnv]; split <;> trivial
  capacity := fun t => by simp only [demoEnv]; split <;> exact ⟨1, by norm_num⟩
  start := fun v => by simp only [demoEnv]; constructor <;> first | trivial | exact ⟨0, by norm_num⟩
  final := fun v => by
    simp only [demoEnv, Vehicle.destination, Option.getD_none]; constructor <;> first | trivial | exact ⟨0, by norm_num⟩
  shift := fun v => by simp only [demoEnv]; trivial
  room := fun v => ⟨2, by simp [demoEnv]⟩

/-- The demo route, which waits, loads and carries two trips at once, meets the hypotheses of C116 to C118, and is accepted. -/
example : (doubles (manhattanRounded roundDouble)).routeFeasible demoEnv demoHeap.core 2 = .ok true ∧
    FeasibleItinerary demoEnv (demoEnv.vehicle (demoHeap.core.route 2).vehicle) (itinerary demoHeap.core 2) := by
  have e : (doubles (manhattanRounded roundDouble)).routeFeasible demoEnv demoHeap.core 2 = .ok true := by decide +kernel
  obtain ⟨b, h, hb⟩ := C118_integer_verdict (E := demoEnv) (c := demoHeap.core) (r := 2) (place := demoPlace) (H := 2 ^ 20)
    demoEnv_ok demo_ok.2.1 rfl demoEnv_integral
    (by
      have : ∀ a ∈ ([[0], [2], [4], [6], [8]] : List Pos), ∀ x ∈ a, x = (x.num : ℚ) := by decide +kernel
      exact fun a ha x hx => ⟨_, this a ha x hx⟩)
    (by
      have : ∀ s ∈ (demoHeap.core.route 2).stops, (demoHeap.core.stop s).start = none := by decide +kernel
      intro s hs q hq; rw [this s hs] at hq; cases hq)
    demoEnv_small (by norm_num)
    (by
      have : ∀ s ∈ (demoHeap.core.route 2).stops, (demoHeap.core.stop s).position ∈ ([[0], [2], [4], [6], [8]] : List Pos) := by
        decide +kernel
      exact this)
    (by decide +kernel) (by decide +kernel)
  rw [e] at h
  cases h
  exact ⟨e, hb.1 rfl⟩

/-- Rounding does change results: in doubles the sum of 0.1 and 0.2 is not 0.3, and exceeds it. -/
example : roundDouble (3 / 10) < roundDouble (roundDouble (1 / 10) + roundDouble (2 / 10)) := by decide +kernel

/-! ## A problem with fractions -/

/-- One trip, a tenth away from the depot. -/
def tenthEnv : Env where
  metric := manhattan
  trip := fun _ =>
    { origin := { position := [roundDouble (1 / 10)], latest := .fin 1, duration := roundDouble (1 / 5) }
      destination := { position := [roundDouble (3 / 10)], latest := .fin 1 }
      timeout := .fin 1 }
  vehicle := fun _ => { origin := { position := [0] } }

/-- The route that serves it. -/
def tenthHeap : Heap := ((newRoute tenthEnv 0 >>= fun r => compute tenthEnv true r [0] 0 1) Heap.empty).2

/-- Its places. -/
def tenthPlace (p : Pos) : Prop := p ∈ ([[0], [roundDouble (1 / 10)], [roundDouble (3 / 10)]] : List Pos)

theorem tenthEnv_ok : EnvOK tenthEnv where
  metric := manhattan_nonneg
  originDuration := by intro t; simp only [tenthEnv]; decide +kernel
  destinationDuration := by intro t; simp only [tenthEnv]; decide +kernel
  capacity := by intro t; simp only [tenthEnv]; decide +kernel

theorem tenth_wellFormed : WellFormed tenthHeap.core 1 := wfB_sound (by decide +kernel)

theorem tenthEnv_small : tenthEnv.Small (manhattanRounded roundDouble) tenthPlace (2 ^ 10 / 8) where
  far := by
    have : ∀ a ∈ ([[0], [roundDouble (1 / 10)], [roundDouble (3 / 10)]] : List Pos),
        ∀ b ∈ ([[0], [roundDouble (1 / 10)], [roundDouble (3 / 10)]] : List Pos), |manhattanRounded roundDouble a b| ≤ 2 ^ 10 / 8 := by
      decide +kernel
    exact fun a b ha hb => this a ha b hb
  depots := fun v => by simp [tenthEnv, tenthPlace]
  ends := fun t => by simp [tenthEnv, tenthPlace]
  origin := fun t => by simp only [tenthEnv]; constructor <;> simp only [Bound.Within] <;> decide +kernel
  destination := fun t => by simp only [tenthEnv]; constructor <;> simp only [Bound.Within] <;> decide +kernel
  timeout := fun t => by simp only [tenthEnv, Bound.Within]; decide +kernel
  start := fun v => by simp only [tenthEnv]; constructor <;> simp only [Bound.Within] <;> decide +kernel
  final := fun v => by
    simp only [tenthEnv]; constructor <;> simp only [Bound.Within, Vehicle.destination, Option.getD_none] <;> decide +kernel
  shift := fun v => by simp only [tenthEnv]; trivial
  room := fun v => by simp only [tenthEnv]; decide +kernel

theorem tenthEnv_doubles : tenthEnv.Doubles :=
  ⟨fun _ => ⟨0, 0, by norm_num, by simp [tenthEnv]⟩, fun _ => ⟨0, 0, by norm_num, by simp [tenthEnv]⟩,
    fun _ => ⟨0, 0, by norm_num, by simp [tenthEnv]⟩⟩

theorem tenth_requests : ∀ s ∈ (tenthHeap.core.route 1).stops, (tenthHeap.core.stop s).start = none := by decide +kernel

theorem tenth_places : ∀ s ∈ (tenthHeap.core.route 1).stops, tenthPlace (tenthHeap.core.stop s).position := by
  have : ∀ s ∈ (tenthHeap.core.route 1).stops,
      (tenthHeap.core.stop s).position ∈ ([[0], [roundDouble (1 / 10)], [roundDouble (3 / 10)]] : List Pos) := by decide +kernel
  exact this

/-- Here the times and distances in doubles are not the exact ones, and the route meets the hypotheses of C116 and C117 with an error
of the distances that is not zero. -/
example : (doubles (manhattanRounded roundDouble)).routeFeasible tenthEnv tenthHeap.core 1 = .ok true ∧
    (∃ s ∈ (tenthHeap.core.route 1).stops, ∀ x, (doubles (manhattanRounded roundDouble)).timesOf tenthEnv tenthHeap.core s = .ok x →
      Reckoning.timesOf ⟨id, manhattan⟩ tenthEnv tenthHeap.core s ≠ .ok x) ∧
    FeasibleWithin tenthEnv (1 / 1000 + slack 4 (2 ^ 10 / 2 ^ 53) (1 / 2 ^ 50)) (tenthEnv.vehicle 0) (itinerary tenthHeap.core 1) := by
  have e : (doubles (manhattanRounded roundDouble)).routeFeasible tenthEnv tenthHeap.core 1 = .ok true := by decide +kernel
  have hl : (tenthHeap.core.route 1).stops.length = 4 ∧ (tenthHeap.core.route 1).vehicle = 0 := by decide +kernel
  have hC : (doubles (manhattanRounded roundDouble)).Close tenthEnv tenthPlace (2 ^ 10) (2 ^ 10 / 2 ^ 53) (1 / 2 ^ 50) :=
    doubles_close tenthEnv_small (by norm_num) (by
      have : ∀ a ∈ ([[0], [roundDouble (1 / 10)], [roundDouble (3 / 10)]] : List Pos),
          ∀ b ∈ ([[0], [roundDouble (1 / 10)], [roundDouble (3 / 10)]] : List Pos),
          |manhattanRounded roundDouble a b - manhattan a b| ≤ 1 / 2 ^ 50 := by decide +kernel
      exact fun a b ha hb => this a ha b hb)
  obtain ⟨b, h, hb, _⟩ := C117_rounded_verdict (E := tenthEnv) (c := tenthHeap.core) (r := 1)
    (doubles_sane tenthEnv_doubles roundedDist_nonneg) hC tenthEnv_ok tenth_wellFormed
    (by intro s hs q hq; rw [tenth_requests s hs] at hq; cases hq) tenth_places (by decide +kernel)
    (by rw [hl.1]; norm_num [slack])
  rw [e] at h
  cases h
  refine ⟨e, ⟨3, by decide +kernel, ?_⟩, ?_⟩
  · have : (doubles (manhattanRounded roundDouble)).timesOf tenthEnv tenthHeap.core 3 ≠
        Reckoning.timesOf ⟨id, manhattan⟩ tenthEnv tenthHeap.core 3 := by decide +kernel
    intro x hx h
    exact this (hx.trans h.symm)
  · have := hb rfl
    rwa [hl.1, hl.2] at this

/-! ## A trip at the edge of its window -/

/-- The pickup closes at 4 and is reached at the double next to 4.001, which is a little later. -/
def edgeEnv : Env where
  metric := manhattan
  trip := fun _ => { origin := { position := [roundDouble (4001 / 1000)], latest := .fin 4 }, destination := { position := [8] } }
  vehicle := fun _ => { origin := { position := [0] } }

/-- The route that serves it. -/
def edgeHeap : Heap := ((newRoute edgeEnv 0 >>= fun r => compute edgeEnv false r [0] 0 1) Heap.empty).2

theorem edge_wellFormed : WellFormed edgeHeap.core 1 := wfB_sound (by decide +kernel)

theorem edgeEnv_ok : EnvOK edgeEnv where
  metric := manhattan_nonneg
  originDuration := by intro t; simp only [edgeEnv]; decide +kernel
  destinationDuration := by intro t; simp only [edgeEnv]; decide +kernel
  capacity := by intro t; simp only [edgeEnv]; decide +kernel

/-- The claim that verdicts in doubles are the exact ones, on problems whose distances are computed exactly. -/
def DoubleVerdictExact : Prop :=
  ∀ (E : Env) (c : Core) (r : Nat) (dist : Pos → Pos → ℚ) (b : Bool), EnvOK E → WellFormed c r → E.Doubles →
    (∀ s ∈ (c.route r).stops, ∀ q ∈ (c.stop s).start, IsDouble q) → (∀ a b, 0 ≤ dist a b) →
    (∀ s ∈ (c.route r).stops, ∀ s' ∈ (c.route r).stops,
      dist (c.stop s).position (c.stop s').position = E.metric (c.stop s).position (c.stop s').position) →
    (doubles dist).routeFeasible E c r = .ok b →
    (b = true ↔ FeasibleItinerary E (E.vehicle (c.route r).vehicle) (itinerary c r))

/-- **C118**, the limit of it: without integers the verdicts may differ. The pickup is reached 3·10⁻¹⁶ after its closing time plus
`ERROR_BOUND`, a sum that is rounded up to the time of arrival. -/
theorem C118_verdicts_differ : ¬ DoubleVerdictExact := by
  intro h
  have hr : ∀ s ∈ (edgeHeap.core.route 1).stops, ∀ q ∈ (edgeHeap.core.stop s).start, q = roundDouble (4001 / 1000) := by decide +kernel
  have hdist : ∀ s ∈ (edgeHeap.core.route 1).stops, ∀ s' ∈ (edgeHeap.core.route 1).stops,
      manhattanRounded roundDouble (edgeHeap.core.stop s).position (edgeHeap.core.stop s').position =
        manhattan (edgeHeap.core.stop s).position (edgeHeap.core.stop s').position := by decide +kernel
  have hD : edgeEnv.Doubles := ⟨fun _ => ⟨0, 0, by norm_num, by simp [edgeEnv]⟩, fun _ => ⟨0, 0, by norm_num, by simp [edgeEnv]⟩,
    fun _ => ⟨0, 0, by norm_num, by simp [edgeEnv]⟩⟩
  have hf := (h edgeEnv edgeHeap.core 1 (manhattanRounded roundDouble) true edgeEnv_ok edge_wellFormed hD
    (by intro s hs q hq; rw [hr s hs q hq]; exact C118_round_double.1 _) roundedDist_nonneg hdist (by decide +kernel)).1 rfl
  have he : (edgeHeap.core.route 1).vehicle = 0 := by decide +kernel
  rw [he] at hf
  have ht := (hf.trips 1 2 _ _ _ _ _ _ 0 (List.getElem?_eq_getElem (by decide +kernel)) (List.getElem?_eq_getElem (by decide +kernel))
    (List.getElem?_eq_getElem (by decide +kernel)) (List.getElem?_eq_getElem (by decide +kernel))
    (List.getElem?_eq_getElem (by decide +kernel)) (List.getElem?_eq_getElem (by decide +kernel))
    (by decide +kernel) (by decide +kernel)).pickLatest
  revert ht
  decide +kernel

end Jinete
