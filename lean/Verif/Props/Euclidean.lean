import Verif.Props.Rounded
import Verif.Props.Surface
import Verif.Proofs.Euclidean

/-!
# C121, C122, C123: Euclidean distances in floating point

The distances of `DistanceMetric._euclidean_distance` when every operation is rounded, and the verdicts of routes with them.
-/

set_option autoImplicit false

namespace Jinete

/-! ## C121 -/

/-- Rounding the exact square, as a correctly rounded `pow` does, is good enough. -/
theorem squareDouble_well : SquaresWell squareDouble where
  low := fun x => by
    have := (roundDouble_factor (sq_nonneg x)).1
    unfold squareDouble
    have h1 := halfUnit_pos
    have h2 := halfUnit_lt
    nlinarith [mul_nonneg (mul_nonneg h1.le (by linarith : (0 : ℚ) ≤ 1 - halfUnit)) (sq_nonneg x)]
  high := fun x => by
    have := (roundDouble_factor (sq_nonneg x)).2
    unfold squareDouble
    have h1 := halfUnit_pos
    nlinarith [mul_nonneg (mul_nonneg h1.le (by linarith : (0 : ℚ) ≤ 1 + halfUnit)) (sq_nonneg x)]
  even := fun x => by unfold squareDouble; rw [neg_sq]

/-- **C121**, the root: the result is a double, is not negative, is zero at zero only, and no double is nearer to the exact root. -/
theorem C121_sqrt_double {q : ℚ} (hq : 0 ≤ q) :
    IsDouble (sqrtDouble q) ∧ 0 ≤ sqrtDouble q ∧ (sqrtDouble q = 0 ↔ q = 0) ∧
    ∀ x, IsDouble x → |(sqrtDouble q : ℝ) - Real.sqrt q| ≤ |(x : ℝ) - Real.sqrt q| := by
  refine ⟨sqrtDouble_repr hq, sqrtDouble_nonneg hq, ⟨fun h => ?_, fun h => ?_⟩, ?_⟩
  · by_contra hne
    exact absurd h (sqrtDouble_pos (lt_of_le_of_ne hq (Ne.symm hne))).ne'
  · rw [h]; exact sqrtDouble_zero
  · rintro x ⟨m, k, hm, rfl⟩
    have := sqrtDouble_nearest hq hm k
    push_cast
    exact this

variable {square : ℚ → ℚ}

theorem halfUnit_mul {n : ℕ} (hn : n + 6 ≤ 2 ^ 52) : 2 * ((n + 6 : ℕ) : ℚ) * halfUnit ≤ 1 := by
  have h : ((n + 6 : ℕ) : ℚ) ≤ 2 ^ 52 := by exact_mod_cast hn
  unfold halfUnit
  linarith

/-- **C121**, accuracy: a computed distance is a double, is not negative, is zero only where the distance is, does not depend on the
order of the two points, and is off by at most `(n + 6) 2⁻⁵³` of the exact distance, where `n` is the number of coordinates. -/
theorem C121_euclidean_double (hq : SquaresWell square) (a b : Pos) (hn : (a.zip b).length + 6 ≤ 2 ^ 52) :
    IsDouble (euclideanRounded square a b) ∧ 0 ≤ euclideanRounded square a b ∧
    (euclideanRounded square a b = 0 ↔ euclidean a b = 0) ∧ euclideanRounded square a b = euclideanRounded square b a ∧
    |(euclideanRounded square a b : ℝ) - euclidean a b| ≤ ((a.zip b).length + 6) / 2 ^ 53 * euclidean a b := by
  have h0 := euclideanRounded_nonneg hq a b
  have e0 : 0 ≤ euclidean a b := Real.sqrt_nonneg _
  have key : |(euclideanRounded square a b : ℝ) - euclidean a b| ≤ ((a.zip b).length + 6) / 2 ^ 53 * euclidean a b := by
    obtain ⟨h1, h2⟩ := euclideanRounded_sq hq a b
    have hm := halfUnit_mul hn
    have S0 := euclideanSq_nonneg a b
    have u := pow_upper halfUnit_pos.le _ hm
    have l := pow_lower halfUnit_pos.le _ hm (by linarith [halfUnit_lt])
    have h3 := le_trans (mul_le_mul_of_nonneg_right l S0) h1
    have h4 := le_trans h2 (mul_le_mul_of_nonneg_right u S0)
    have k3 := (Rat.cast_le (K := ℝ)).2 h3
    have k4 := (Rat.cast_le (K := ℝ)).2 h4
    have km := (Rat.cast_le (K := ℝ)).2 hm
    have kh : ((halfUnit : ℚ) : ℝ) = 1 / 2 ^ 53 := by unfold halfUnit; push_cast; ring
    push_cast [kh] at k3 k4 km
    rw [← euclidean_sq] at k3 k4
    have k0 : (0 : ℝ) ≤ euclideanRounded square a b := by exact_mod_cast h0
    set d : ℝ := euclidean a b
    set x : ℝ := (euclideanRounded square a b : ℝ)
    set w : ℝ := (((a.zip b).length : ℝ) + 6) / 2 ^ 53 with hw
    have ew : (((a.zip b).length : ℝ) + 6) * (1 / 2 ^ 53) = w := by rw [hw]; ring
    have ew2 : 2 * (((a.zip b).length : ℝ) + 6) * (1 / 2 ^ 53) = 2 * w := by rw [hw]; ring
    rw [ew] at k3 k4
    rw [ew2] at km
    have w0 : 0 ≤ w := by rw [hw]; positivity
    rw [← mul_pow] at k3 k4
    have j3 := abs_le_of_sq_le_sq' k4 (mul_nonneg (by linarith) e0)
    have j5 : (1 - w) * d ≤ x := by
      have := abs_le_of_sq_le_sq' k3 k0
      exact this.2
    rw [abs_le]
    constructor <;> nlinarith [j3.2]
  refine ⟨sqrtDouble_repr (radicand hq a b).1, h0, ⟨fun h => ?_, fun h => ?_⟩, euclideanRounded_symm hq a b, key⟩
  · rw [h] at key
    have hw : (((a.zip b).length : ℝ) + 6) / 2 ^ 53 ≤ 1 / 2 := by
      have : (((a.zip b).length + 6 : ℕ) : ℝ) ≤ 2 ^ 52 := by exact_mod_cast hn
      push_cast at this
      rw [div_le_iff₀ (by positivity)]
      linarith
    simp only [Rat.cast_zero, zero_sub, abs_neg, abs_of_nonneg e0] at key
    nlinarith
  · rw [h] at key
    simp only [sub_zero, mul_zero] at key
    have := abs_nonpos_iff.1 key
    exact_mod_cast this

/-- Computed distances: exact where the root is a double, otherwise rounded. -/
example : euclideanRounded squareDouble [0, 0] [3, 4] = 5 ∧ euclideanRounded squareDouble [1, 1] [0, 0] = 6369051672525773 / 2 ^ 52 ∧
    euclideanRounded squareDouble [1, 1] [0, 0] = euclideanRounded squareDouble [0, 0] [1, 1] := by decide +kernel

/-- C121 at a distance that is not a double. -/
example : |(euclideanRounded squareDouble [0, 0] [1, 1] : ℝ) - Real.sqrt 2| ≤ 8 / 2 ^ 53 * Real.sqrt 2 := by
  have h := (C121_euclidean_double squareDouble_well [0, 0] [1, 1] (by decide)).2.2.2.2
  have e : euclidean [0, 0] [1, 1] = Real.sqrt 2 := by
    unfold euclidean
    congr 1
    have : euclideanSq [0, 0] [1, 1] = 2 := by decide +kernel
    rw [this]; norm_num
  rw [e] at h
  norm_num at h ⊢
  exact h

/-! ## C122 -/

/-- The claim that computed distances meet the triangle inequality, with the sum rounded or not. -/
def DoubleDistancesTriangle : Prop :=
  ∀ (square : ℚ → ℚ) (a b c : Pos), SquaresWell square → a.length = b.length → b.length = c.length →
    euclideanRounded square a c ≤ max (euclideanRounded square a b + euclideanRounded square b c)
      (roundDouble (euclideanRounded square a b + euclideanRounded square b c))

/-- **C122.** Computed distances meet the triangle inequality up to a relative error of `4 (n + 6) 2⁻⁵³`.
Missing: the inequality itself, which `C122_no_metric` refutes. -/
theorem C122_triangle_partial (hq : SquaresWell square) {a b c : Pos} (h1 : a.length = b.length) (h2 : b.length = c.length)
    (hn : a.length + 6 ≤ 2 ^ 52) :
    euclideanRounded square a c ≤
      (1 + 4 * (a.length + 6) / 2 ^ 53) * (euclideanRounded square a b + euclideanRounded square b c) := by
  have z1 : (a.zip b).length = a.length := by simp [h1]
  have z2 : (b.zip c).length = a.length := by simp [h1, h2]
  have z3 : (a.zip c).length = a.length := by simp [h1, h2]
  have k1 := (C121_euclidean_double hq a b (by rw [z1]; exact hn)).2.2.2.2
  have k2 := (C121_euclidean_double hq b c (by rw [z2]; exact hn)).2.2.2.2
  have k3 := (C121_euclidean_double hq a c (by rw [z3]; exact hn)).2.2.2.2
  rw [z1] at k1
  rw [z2] at k2
  rw [z3] at k3
  have t := euclidean_isMetric.triangle a b c h1 h2
  rw [← Rat.cast_le (K := ℝ)]
  push_cast
  have ab : 0 ≤ euclidean a b := Real.sqrt_nonneg _
  have bc : 0 ≤ euclidean b c := Real.sqrt_nonneg _
  have hw : ((a.length : ℝ) + 6) / 2 ^ 53 ≤ 1 / 2 := by
    have : ((a.length + 6 : ℕ) : ℝ) ≤ 2 ^ 52 := by exact_mod_cast hn
    push_cast at this
    rw [div_le_iff₀ (by positivity)]
    linarith
  have w0 : 0 ≤ ((a.length : ℝ) + 6) / 2 ^ 53 := by positivity
  rw [mul_div_assoc]
  set w : ℝ := ((a.length : ℝ) + 6) / 2 ^ 53
  rw [abs_le] at k1 k2 k3
  have j : (1 - w) * (euclidean a b + euclidean b c) ≤ (euclideanRounded square a b : ℝ) + euclideanRounded square b c := by linarith
  have j' : (1 + w) * (euclidean a b + euclidean b c) ≤ (1 + 4 * w) * ((1 - w) * (euclidean a b + euclidean b c)) := by
    have : 0 ≤ w * (1 - 2 * w) * (euclidean a b + euclidean b c) := mul_nonneg (mul_nonneg w0 (by linarith)) (by linarith)
    nlinarith
  have j2 := mul_le_mul_of_nonneg_left j (by linarith : (0 : ℝ) ≤ 1 + 4 * w)
  have j3 : (euclideanRounded square a c : ℝ) ≤ (1 + w) * (euclidean a b + euclidean b c) := by
    have := mul_le_mul_of_nonneg_left t (by linarith : (0 : ℝ) ≤ 1 + w)
    linarith
  linarith

/-- **C122**, the limit of it: from (0, 0) to (4, 4) the way over (1, 1), which is on the line, is computed to be shorter. -/
theorem C122_no_metric : ¬ DoubleDistancesTriangle := fun h =>
  absurd (h squareDouble [0, 0] [1, 1] [4, 4] squareDouble_well rfl rfl) (by decide +kernel)

/-- C122 there. -/
example : euclideanRounded squareDouble [0, 0] [4, 4] ≤
    (1 + 32 / 2 ^ 53) * (euclideanRounded squareDouble [0, 0] [1, 1] + euclideanRounded squareDouble [1, 1] [4, 4]) := by
  have := C122_triangle_partial squareDouble_well (a := [0, 0]) (b := [1, 1]) (c := [4, 4]) rfl rfl (by decide)
  norm_num at this ⊢
  exact this

/-! ## C123 -/

variable {E : Env} {c : Core} {r : Nat}

/-- The travel times of the problem are within `η` of the Euclidean distances between its places, which are points of the plane. -/
structure Env.Euclidean (E : Env) (place : Pos → Prop) (η : ℚ) : Prop where
  plane : ∀ a, place a → a.length ≤ 2
  near : ∀ a b, place a → place b → |(E.metric a b : ℝ) - euclidean a b| ≤ η

theorem euclidean_off (hq : SquaresWell square) {place : Pos → Prop} {H η : ℚ} (hE : E.Euclidean place η)
    (hS : E.Small (euclideanRounded square) place (H / 8)) (a b : Pos) (ha : place a) (hb : place b) :
    |euclideanRounded square a b - E.metric a b| ≤ 2 * H / 2 ^ 53 + η := by
  have hl : (a.zip b).length ≤ 2 := by
    rw [List.length_zip]; exact le_trans (min_le_left _ _) (hE.plane a ha)
  have k := (C121_euclidean_double hq a b (by omega)).2.2.2.2
  have f := (Rat.cast_le (K := ℝ)).2 (le_trans (le_abs_self _) (hS.far a b ha hb))
  have nn := hE.near a b ha hb
  rw [← Rat.cast_le (K := ℝ)]
  push_cast at f ⊢
  have d0 : 0 ≤ euclidean a b := Real.sqrt_nonneg _
  have hl' : (((a.zip b).length : ℕ) : ℝ) ≤ 2 := by exact_mod_cast hl
  have k' : |(euclideanRounded square a b : ℝ) - euclidean a b| ≤ 8 / 2 ^ 53 * euclidean a b :=
    le_trans k (mul_le_mul_of_nonneg_right (div_le_div_of_nonneg_right (by linarith) (by norm_num)) d0)
  have k2 := abs_le.1 k'
  have d1 : euclidean a b ≤ H / 4 := by linarith
  rw [abs_le] at nn ⊢
  constructor <;> linarith

theorem slack_euclidean {n : Nat} {H : ℚ} (hn : 1000 * (2 * n + 3) * H ≤ 2 ^ 50) :
    slack n (H / 2 ^ 53) (2 * H / 2 ^ 53 + H / 2 ^ 53) ≤ 1 / 1000 := by
  unfold slack
  have e : (2 * (n : ℚ) + 3) * (2 * (H / 2 ^ 53) + (2 * H / 2 ^ 53 + H / 2 ^ 53)) = (1000 * (2 * n + 3) * H) * 5 / (1000 * 2 ^ 53) := by
    ring
  rw [e, div_le_div_iff₀ (by norm_num) (by norm_num)]
  linarith

/-- **C123.** Routes in the plane, with times and Euclidean distances in doubles: let the travel times of the problem be the
Euclidean distances up to `H / 2⁵³`, and the route and its numbers be in range (`1000 (2 n + 3) H ≤ 2⁵⁰`). Then
`Route.feasible` returns a verdict; a route is accepted only if it meets the constraints of the problem up to twice `ERROR_BOUND`,
and every route that meets them without any tolerance is accepted. -/
theorem C123_euclidean_verdict {place : Pos → Prop} {H : ℚ} (hq : SquaresWell square) (hE : EnvOK E) (hw : WellFormed c r)
    (hD : E.Doubles) (hs : ∀ s ∈ (c.route r).stops, ∀ q ∈ (c.stop s).start, IsDouble q)
    (hm : E.Euclidean place (H / 2 ^ 53)) (hS : E.Small (euclideanRounded square) place (H / 8)) (h1 : 1 ≤ H)
    (hpl : ∀ s ∈ (c.route r).stops, place (c.stop s).position) (hd : ∀ y ∈ (routeTimetable E c r).getLast?, y.dep ≤ H / 4)
    (hn : 1000 * (2 * ((c.route r).stops.length : ℚ) + 3) * H ≤ 2 ^ 50) :
    ∃ b, (doubles (euclideanRounded square)).routeFeasible E c r = .ok b ∧
      (b = true → FeasibleWithin E (2 * errorBound) (E.vehicle (c.route r).vehicle) (itinerary c r)) ∧
      (FeasibleWithin E 0 (E.vehicle (c.route r).vehicle) (itinerary c r) → b = true) := by
  have hsl := slack_euclidean hn
  obtain ⟨b, e, h2, h3⟩ := C117_rounded_verdict (doubles_sane hD (euclideanRounded_nonneg hq))
    (doubles_close hS h1 (euclidean_off hq hm hS)) hE hw (fun s hs' q hx => C118_round_double.2.2.1 _ (hs s hs' q hx)) hpl hd (by linarith)
  exact ⟨b, e, fun h => (h2 h).mono (by unfold errorBound; linarith), fun h => h3 0 (by linarith) h⟩

/-- Rational travel times close to Euclidean distances exist, however close they have to be. -/
theorem gridEuclidean_near (k : ℕ) (a b : Pos) : 0 ≤ gridEuclidean k a b ∧ |(gridEuclidean k a b : ℝ) - euclidean a b| ≤ 1 / 2 ^ k := by
  refine ⟨by unfold gridEuclidean; positivity, ?_⟩
  have S0 := euclideanSq_nonneg a b
  have p0 : (0 : ℚ) ≤ euclideanSq a b * 4 ^ k := by positivity
  set m := Nat.sqrt ⌊euclideanSq a b * 4 ^ k⌋₊ with hm
  have h1 : (m : ℚ) ^ 2 ≤ euclideanSq a b * 4 ^ k := by
    refine le_trans ?_ (Nat.floor_le p0)
    have := Nat.sqrt_le' ⌊euclideanSq a b * 4 ^ k⌋₊
    rw [← hm] at this
    exact_mod_cast this
  have h2 : euclideanSq a b * 4 ^ k ≤ ((m : ℚ) + 1) ^ 2 := by
    refine le_trans (Nat.lt_floor_add_one _).le ?_
    have := Nat.lt_succ_sqrt' ⌊euclideanSq a b * 4 ^ k⌋₊
    rw [← hm, Nat.succ_eq_add_one] at this
    have : ⌊euclideanSq a b * 4 ^ k⌋₊ + 1 ≤ (m + 1) ^ 2 := this
    exact_mod_cast this
  have k1 := (Rat.cast_le (K := ℝ)).2 h1
  have k2 := (Rat.cast_le (K := ℝ)).2 h2
  push_cast at k1 k2
  have e4 : (4 : ℝ) ^ k = (2 ^ k) ^ 2 := by rw [← pow_mul, mul_comm k 2, pow_mul]; norm_num
  have d0 : 0 ≤ euclidean a b := Real.sqrt_nonneg _
  have t0 : (0 : ℝ) < 2 ^ k := by positivity
  rw [← euclidean_sq, e4, ← mul_pow] at k1 k2
  have j1 := (abs_le_of_sq_le_sq' k1 (mul_nonneg d0 t0.le)).2
  have j2 := (abs_le_of_sq_le_sq' k2 (by positivity)).2
  have eg : ((gridEuclidean k a b : ℚ) : ℝ) = m / 2 ^ k := by unfold gridEuclidean; push_cast; rw [← hm]
  rw [eg, abs_le]
  constructor
  · rw [← sub_nonneg]
    have : (m : ℝ) / 2 ^ k - euclidean a b - -(1 / 2 ^ k) = (m + 1 - euclidean a b * 2 ^ k) / 2 ^ k := by field_simp; ring
    rw [this]
    exact div_nonneg (by linarith) t0.le
  · rw [← sub_nonneg]
    have : 1 / 2 ^ k - ((m : ℝ) / 2 ^ k - euclidean a b) = (euclidean a b * 2 ^ k + 1 - m) / 2 ^ k := by field_simp; ring
    rw [this]
    exact div_nonneg (by linarith) t0.le

/-! ## A problem in the plane -/

/-- A trip from (1, 1) to (2, 3), with windows, a duration and a limit of the ride. -/
def planeEnv : Env where
  metric := gridEuclidean 60
  trip := fun _ =>
    { origin := { position := [1, 1], latest := .fin 2, duration := 1 }
      destination := { position := [2, 3], earliest := 4, latest := .fin 5 }
      timeout := .fin 3 }
  vehicle := fun _ => { origin := { position := [0, 0] } }

/-- The route that serves it. -/
def planeHeap : Heap := ((newRoute planeEnv 0 >>= fun r => compute planeEnv true r [0] 0 1) Heap.empty).2

/-- Its places. -/
def planePlace (p : Pos) : Prop := p ∈ ([[0, 0], [1, 1], [2, 3]] : List Pos)

theorem planeEnv_ok : EnvOK planeEnv where
  metric := fun a b => (gridEuclidean_near 60 a b).1
  originDuration := by intro t; simp only [planeEnv]; decide +kernel
  destinationDuration := by intro t; simp only [planeEnv]; decide +kernel
  capacity := by intro t; simp only [planeEnv]; decide +kernel

theorem planeEnv_euclidean : planeEnv.Euclidean planePlace (2 ^ 10 / 2 ^ 53) where
  plane := by
    have : ∀ a ∈ ([[0, 0], [1, 1], [2, 3]] : List Pos), a.length ≤ 2 := by decide +kernel
    exact this
  near := fun a b _ _ => le_trans (gridEuclidean_near 60 a b).2 (by push_cast; norm_num)

theorem planeEnv_small : planeEnv.Small (euclideanRounded squareDouble) planePlace (2 ^ 10 / 8) where
  far := by
    have : ∀ a ∈ ([[0, 0], [1, 1], [2, 3]] : List Pos), ∀ b ∈ ([[0, 0], [1, 1], [2, 3]] : List Pos),
        |euclideanRounded squareDouble a b| ≤ 2 ^ 10 / 8 := by decide +kernel
    exact fun a b ha hb => this a ha b hb
  depots := fun v => by simp [planeEnv, planePlace]
  ends := fun t => by simp [planeEnv, planePlace]
  origin := fun t => by simp only [planeEnv]; constructor <;> simp only [Bound.Within] <;> decide +kernel
  destination := fun t => by simp only [planeEnv]; constructor <;> simp only [Bound.Within] <;> decide +kernel
  timeout := fun t => by simp only [planeEnv, Bound.Within]; decide +kernel
  start := fun v => by simp only [planeEnv]; constructor <;> simp only [Bound.Within] <;> decide +kernel
  final := fun v => by
    simp only [planeEnv]; constructor <;> simp only [Bound.Within, Vehicle.destination, Option.getD_none] <;> decide +kernel
  shift := fun v => by simp only [planeEnv]; trivial
  room := fun v => by simp only [planeEnv]; decide +kernel

theorem planeEnv_doubles : planeEnv.Doubles :=
  ⟨fun _ => ⟨0, 0, by norm_num, by simp [planeEnv]⟩, fun _ => ⟨0, 0, by norm_num, by simp [planeEnv]⟩,
    fun _ => ⟨4, 0, by norm_num, by simp [planeEnv]⟩⟩

/-- The route meets the hypotheses of C123 and is accepted; its distances are computed with an error. -/
example : (doubles (euclideanRounded squareDouble)).routeFeasible planeEnv planeHeap.core 1 = .ok true ∧
    euclideanRounded squareDouble [0, 0] [1, 1] ≠ planeEnv.metric [0, 0] [1, 1] ∧
    FeasibleWithin planeEnv (2 * errorBound) (planeEnv.vehicle 0) (itinerary planeHeap.core 1) := by
  have e : (doubles (euclideanRounded squareDouble)).routeFeasible planeEnv planeHeap.core 1 = .ok true := by decide +kernel
  have hr : ∀ s ∈ (planeHeap.core.route 1).stops, (planeHeap.core.stop s).start = none := by decide +kernel
  have hp : ∀ s ∈ (planeHeap.core.route 1).stops, (planeHeap.core.stop s).position ∈ ([[0, 0], [1, 1], [2, 3]] : List Pos) := by
    decide +kernel
  have hl : (planeHeap.core.route 1).stops.length = 4 ∧ (planeHeap.core.route 1).vehicle = 0 := by decide +kernel
  obtain ⟨b, h, hb, _⟩ := C123_euclidean_verdict (E := planeEnv) (c := planeHeap.core) (r := 1) (H := 2 ^ 10) squareDouble_well
    planeEnv_ok (wfB_sound (by decide +kernel)) planeEnv_doubles (by intro s hs q hq; rw [hr s hs] at hq; cases hq)
    planeEnv_euclidean planeEnv_small (by norm_num) hp (by decide +kernel) (by rw [hl.1]; norm_num)
  rw [e] at h
  cases h
  refine ⟨e, by decide +kernel, ?_⟩
  have := hb rfl
  rwa [hl.2] at this

end Jinete
