import Verif.Proofs.RoundedValue
import Verif.Proofs.Integral
import Verif.Props.Euclidean

/-!
# C126, C127: values of plannings in floating point

`DialARideObjective` adds up the distances of the routes in the order in which a set of routes is iterated, which Python does not
determine (routes are hashed by address). The values below are those computed with doubles.
-/

set_option autoImplicit false

namespace Jinete

variable {E : Env} {c : Core} {dist : Pos → Pos → ℚ} {δ : Pos → Pos → ℝ} {place : Pos → Prop} {w : ℝ}

/-- The depots and itineraries of the routes of a planning. -/
def toursOf (E : Env) (c : Core) (routes : List Nat) : Tours :=
  routes.map fun r => ((E.vehicle (c.route r).vehicle).origin.position, itinerary c r)

/-! ## C126 -/

theorem toursOf_served (routes : List Nat) : (toursOf E c routes).served = (routes.map fun r => (routeTrips c r).length).sum := by
  unfold Tours.served toursOf
  rw [List.map_map]
  congr 1
  refine List.map_congr_left fun r _ => ?_
  show ((itinerary c r).flatMap Visit.picks).length = _
  rw [picks_eq]

theorem toursOf_length {routes : List Nat} (hc : ∀ r ∈ routes, Chained c r) :
    (toursOf E c routes).length δ =
      (routes.map fun r => ((c.route r).stops.map fun s => δ (c.stop s).position (stopPrevPosition E c s)).sum).sum := by
  unfold Tours.length toursOf
  rw [List.map_map]
  congr 1
  refine List.map_congr_left fun r hr => ?_
  show ((tourLegs _ (itinerary c r)).map _).sum = _
  rw [(hc r hr).legs_eq, List.map_map]
  rfl

theorem toursOf_places {routes : List Nat} (hc : ∀ r ∈ routes, Chained c r) (hp : (toursOf E c routes).Within place) :
    ∀ r ∈ routes, ∀ s ∈ (c.route r).stops, place (c.stop s).position ∧ place (stopPrevPosition E c s) := by
  intro r hr s hs
  obtain ⟨h1, h2⟩ := hp _ (List.mem_map_of_mem hr)
  have := legs_places (place := place) ((itinerary c r).map Visit.pos) _ h1 (fun q hq => by
    obtain ⟨v, hv, rfl⟩ := List.mem_map.1 hq; exact h2 v hv)
  have e := (hc r hr).legs_eq (E := E)
  unfold tourLegs at e
  rw [e] at this
  exact this _ (List.mem_map_of_mem hs)

theorem cast_list_sum (l : List ℚ) : ((l.sum : ℚ) : ℝ) = (l.map fun q : ℚ => (q : ℝ)).sum := by
  induction l with
  | nil => simp
  | cons q l ih => simp [ih]

theorem length_measured {routes : List Nat} (hm : MeasuresWithin place dist δ w) (hc : ∀ r ∈ routes, Chained c r)
    (hp : (toursOf E c routes).Within place) :
    (1 - w) * (toursOf E c routes).length δ ≤
      (((routes.map fun r => ((c.route r).stops.map fun s => dist (c.stop s).position (stopPrevPosition E c s)).sum).sum : ℚ) : ℝ) ∧
    (((routes.map fun r => ((c.route r).stops.map fun s => dist (c.stop s).position (stopPrevPosition E c s)).sum).sum : ℚ) : ℝ) ≤
      (1 + w) * (toursOf E c routes).length δ := by
  rw [toursOf_length hc, ← List.sum_map_mul_left, ← List.sum_map_mul_left, cast_list_sum, List.map_map]
  have hr := toursOf_places hc hp
  constructor <;> refine List.sum_le_sum fun r hr' => ?_
  all_goals
    simp only [Function.comp_def, cast_list_sum, List.map_map]
    rw [← List.sum_map_mul_left]
    refine List.sum_le_sum fun s hs => ?_
    obtain ⟨a, b⟩ := hr r hr' s hs
    have := abs_le.1 (hm.near _ _ a b)
    linarith [this.1, this.2]

theorem length_nonneg {routes : List Nat} (hm : MeasuresWithin place dist δ w) (w0 : 0 ≤ w) (hc : ∀ r ∈ routes, Chained c r)
    (hp : (toursOf E c routes).Within place) : 0 ≤ (toursOf E c routes).length δ := by
  have hpl := toursOf_places hc hp
  rw [toursOf_length hc]
  refine List.sum_nonneg fun x hx => ?_
  obtain ⟨r, hr, rfl⟩ := List.mem_map.1 hx
  refine List.sum_nonneg fun y hy => ?_
  obtain ⟨s, hs, rfl⟩ := List.mem_map.1 hy
  have h1 := hm.near _ _ (hpl r hr s hs).1 (hpl r hr s hs).2
  have h2 : (0 : ℝ) ≤ dist (c.stop s).position (stopPrevPosition E c s) := by exact_mod_cast hm.nonneg _ _
  have := abs_le.1 h1
  by_contra h
  push Not at h
  nlinarith [this.1, this.2]

/-- **C126**, accuracy: the first component of the value of a planning is the number of trips served, and the second is minus the
length of its tours with a relative error of at most `2 (n + R) 2⁻⁵³ + 2 w` (`R` routes of at most `n` stops, distances computed
within `w`), in whichever order the routes are added. -/
theorem C126_value_accuracy (hm : MeasuresWithin place dist δ w) (w0 : 0 ≤ w) {routes : List Nat} {n : ℕ}
    (hc : ∀ r ∈ routes, Chained c r) (hp : (toursOf E c routes).Within place) (hn : ∀ r ∈ routes, (c.route r).stops.length ≤ n)
    (hb : n + routes.length ≤ 2 ^ 52) :
    ((doubles dist).planningValue E c routes).1 = (toursOf E c routes).served ∧
    |(((doubles dist).planningValue E c routes).2 : ℝ) - -(toursOf E c routes).length δ| ≤
      lengthError n routes.length w * (toursOf E c routes).length δ := by
  rw [planningValue_eq, toursOf_served]
  refine ⟨rfl, ?_⟩
  obtain ⟨f1, f2⟩ := planningLength_factor (E := E) (c := c) hm.nonneg routes n hn
  obtain ⟨m1, m2⟩ := length_measured hm hc hp
  have S0 : (0 : ℚ) ≤ (routes.map fun r => ((c.route r).stops.map fun s => dist (c.stop s).position (stopPrevPosition E c s)).sum).sum := by
    refine List.sum_nonneg fun x hx => ?_
    obtain ⟨r, _, rfl⟩ := List.mem_map.1 hx
    refine List.sum_nonneg fun y hy => ?_
    obtain ⟨s, _, rfl⟩ := List.mem_map.1 hy
    exact hm.nonneg _ _
  set S := (routes.map fun r => ((c.route r).stops.map fun s => dist (c.stop s).position (stopPrevPosition E c s)).sum).sum
  set T := (doubles dist).total (routes.map ((doubles dist).routeDistance E c))
  set D := (toursOf E c routes).length δ
  have S0' : (0 : ℝ) ≤ (S : ℝ) := by exact_mod_cast S0
  have D0 : 0 ≤ D := length_nonneg hm w0 hc hp
  have hb' : ((n + routes.length : ℕ) : ℚ) ≤ 2 ^ 52 := by exact_mod_cast hb
  have hv : 2 * ((n + routes.length : ℕ) : ℚ) * halfUnit ≤ 1 := by unfold halfUnit; linarith
  have u := pow_upper_linear halfUnit_pos.le _ hv
  have l := one_add_mul_le_pow (a := -halfUnit) (by have := halfUnit_lt; linarith) (n + routes.length)
  have g1 : (1 - ((n + routes.length : ℕ) : ℚ) * halfUnit) * S ≤ T := by
    refine le_trans (mul_le_mul_of_nonneg_right ?_ S0) f1
    rw [sub_eq_add_neg, sub_eq_add_neg, ← mul_neg]
    exact l
  have g2 : T ≤ (1 + 2 * ((n + routes.length : ℕ) : ℚ) * halfUnit) * S := le_trans f2 (mul_le_mul_of_nonneg_right u S0)
  have g1' := (Rat.cast_le (K := ℝ)).2 g1
  have g2' := (Rat.cast_le (K := ℝ)).2 g2
  have hv' := (Rat.cast_le (K := ℝ)).2 hv
  have k0 : (0 : ℝ) ≤ ((n : ℝ) + routes.length) / 2 ^ 53 := by positivity
  unfold halfUnit at g1' g2' hv'
  push_cast at g1' g2' hv' ⊢
  unfold lengthError
  set k : ℝ := ((n : ℝ) + routes.length) / 2 ^ 53 with hk
  have e1 : ((n : ℝ) + routes.length) * (1 / 2 ^ 53) = k := by rw [hk]; ring
  have e2 : 2 * ((n : ℝ) + routes.length) * (1 / 2 ^ 53) = 2 * k := by rw [hk]; ring
  have e3 : 2 * ((n : ℝ) + routes.length) / 2 ^ 53 = 2 * k := by rw [hk]; ring
  rw [e1] at g1'
  rw [e2] at g2' hv'
  rw [e3]
  have a1 : (1 - k) * ((1 - w) * D) ≤ T := le_trans (mul_le_mul_of_nonneg_left m1 (by linarith)) g1'
  have a2 : (T : ℝ) ≤ (1 + 2 * k) * ((1 + w) * D) := le_trans g2' (mul_le_mul_of_nonneg_left m2 (by linarith))
  have b1 : 0 ≤ k * w * D := mul_nonneg (mul_nonneg k0 w0) D0
  have b2 : 2 * k * (w * D) ≤ 1 * (w * D) := mul_le_mul_of_nonneg_right hv' (mul_nonneg w0 D0)
  have b3 : 0 ≤ k * D := mul_nonneg k0 D0
  have b4 : 0 ≤ w * D := mul_nonneg w0 D0
  rw [abs_le]
  constructor <;> nlinarith

/-- What one would like: the value of a planning, computed in doubles, does not depend on the order of its routes. -/
def ValuesOrderFree : Prop :=
  ∀ (E : Env) (c : Core) (dist : Pos → Pos → ℚ) (routes routes' : List Nat), (∀ a b, 0 ≤ dist a b ∧ IsDouble (dist a b)) →
    (∀ r ∈ routes, WellFormed c r) → routes.Nodup → routes.Perm routes' →
    (doubles dist).planningValue E c routes = (doubles dist).planningValue E c routes'

theorem toursOf_perm {routes routes' : List Nat} (h : routes.Perm routes') : (toursOf E c routes).length δ = (toursOf E c routes').length δ :=
  ((h.map _).map _).sum_eq

/-- **C126**, order: in two orders of the routes a planning has values with the same number of trips, whose lengths differ by a
fraction of at most `4 (n + R) 2⁻⁵³ + 4 w`.
Missing: equality, which `C126_order_matters` refutes; for whole distances see `C126_integers`. -/
theorem C126_order_partial (hm : MeasuresWithin place dist δ w) (w0 : 0 ≤ w) {routes routes' : List Nat} {n : ℕ}
    (hc : ∀ r ∈ routes, Chained c r) (hp : (toursOf E c routes).Within place) (hn : ∀ r ∈ routes, (c.route r).stops.length ≤ n)
    (hb : n + routes.length ≤ 2 ^ 52) (h : routes.Perm routes') :
    ((doubles dist).planningValue E c routes).1 = ((doubles dist).planningValue E c routes').1 ∧
    |(((doubles dist).planningValue E c routes).2 : ℝ) - ((doubles dist).planningValue E c routes').2| ≤
      2 * lengthError n routes.length w * (toursOf E c routes).length δ := by
  have h1 := C126_value_accuracy (E := E) hm w0 hc hp hn hb
  have h2 := C126_value_accuracy (E := E) (routes := routes') hm w0 (fun r hr => hc r (h.mem_iff.2 hr))
    (fun x hx => hp x ((h.map _).mem_iff.2 hx)) (fun r hr => hn r (h.mem_iff.2 hr)) (by rw [← h.length_eq]; exact hb)
  rw [← h.length_eq, ← toursOf_perm h] at h2
  constructor
  · rw [planningValue_eq, planningValue_eq]
    exact (h.map _).sum_eq
  · have a := abs_le.1 h1.2
    have b := abs_le.1 h2.2
    rw [abs_le]
    constructor <;> linarith [a.1, a.2, b.1, b.2]

theorem total_exact {l : List ℚ} : ∀ z : ℚ, IsInt z → 0 ≤ z → (∀ x ∈ l, IsInt x ∧ 0 ≤ x) → z + l.sum < 2 ^ 53 →
    l.foldl (fun s x => (doubles dist).round (s + x)) z = z + l.sum := by
  induction l with
  | nil => intro z _ _ _ _; simp
  | cons x l ih =>
    intro z hz z0 hl hb
    obtain ⟨hx, x0⟩ := hl x (by simp)
    have hs : 0 ≤ l.sum := List.sum_nonneg fun y hy => (hl y (by simp [hy])).2
    rw [List.sum_cons] at hb ⊢
    have e : (doubles dist).round (z + x) = z + x := (hz.add hx).round (by rw [abs_of_nonneg (by linarith)]; linarith)
    rw [List.foldl_cons, e, ih (z + x) (hz.add hx) (by linarith) (fun y hy => hl y (by simp [hy])) (by linarith)]
    ring

/-- **C126**, whole numbers: if the distances between the places are whole and the tours are shorter than `2⁵³`, then the value is
exact, in whichever order the routes are added. -/
theorem C126_integers (h0 : ∀ a b, 0 ≤ dist a b) (hi : ∀ a b, place a → place b → IsInt (dist a b)) {routes : List Nat}
    (hc : ∀ r ∈ routes, Chained c r) (hp : (toursOf E c routes).Within place)
    (hb : (toursOf E c routes).length (fun a b => dist a b) < 2 ^ 53) :
    ((doubles dist).planningValue E c routes).1 = (toursOf E c routes).served ∧
    (((doubles dist).planningValue E c routes).2 : ℝ) = -(toursOf E c routes).length (fun a b => dist a b) ∧
    ∀ routes', routes.Perm routes' → (doubles dist).planningValue E c routes' = (doubles dist).planningValue E c routes := by
  have hpl := toursOf_places hc hp
  have eS : (toursOf E c routes).length (fun a b => dist a b) =
      (((routes.map fun r => ((c.route r).stops.map fun s => dist (c.stop s).position (stopPrevPosition E c s)).sum).sum : ℚ) : ℝ) := by
    rw [toursOf_length hc, cast_list_sum, List.map_map]
    congr 1
    refine List.map_congr_left fun r _ => ?_
    simp only [Function.comp_def, cast_list_sum, List.map_map]
  rw [eS] at hb ⊢
  have hb' : (routes.map fun r => ((c.route r).stops.map fun s => dist (c.stop s).position (stopPrevPosition E c s)).sum).sum < 2 ^ 53 := by
    exact_mod_cast hb
  have hd : ∀ r ∈ routes, ∀ x ∈ (c.route r).stops.map fun s => dist (c.stop s).position (stopPrevPosition E c s), IsInt x ∧ 0 ≤ x := by
    intro r hr x hx
    obtain ⟨s, hs, rfl⟩ := List.mem_map.1 hx
    exact ⟨hi _ _ (hpl r hr s hs).1 (hpl r hr s hs).2, h0 _ _⟩
  have hS0 : ∀ r ∈ routes, 0 ≤ ((c.route r).stops.map fun s => dist (c.stop s).position (stopPrevPosition E c s)).sum :=
    fun r hr => List.sum_nonneg fun x hx => (hd r hr x hx).2
  have one : ∀ r ∈ routes, (doubles dist).routeDistance E c r =
      ((c.route r).stops.map fun s => dist (c.stop s).position (stopPrevPosition E c s)).sum := by
    intro r hr
    have hle := List.single_le_sum (l := routes.map fun r => ((c.route r).stops.map fun s => dist (c.stop s).position (stopPrevPosition E c s)).sum)
      (fun x hx => by obtain ⟨r, hr, rfl⟩ := List.mem_map.1 hx; exact hS0 r hr) _ (List.mem_map_of_mem hr)
    have := total_exact (dist := dist) 0 IsInt.zero le_rfl (hd r hr) (by rw [zero_add]; exact lt_of_le_of_lt hle hb')
    rw [zero_add] at this
    exact this
  have all : ∀ routes', routes.Perm routes' → (doubles dist).total (routes'.map ((doubles dist).routeDistance E c)) =
      (routes.map fun r => ((c.route r).stops.map fun s => dist (c.stop s).position (stopPrevPosition E c s)).sum).sum := by
    intro routes' h
    have e : routes'.map ((doubles dist).routeDistance E c) =
        routes'.map fun r => ((c.route r).stops.map fun s => dist (c.stop s).position (stopPrevPosition E c s)).sum :=
      List.map_congr_left fun r hr => one r (h.mem_iff.2 hr)
    have hsum := (h.map fun r => ((c.route r).stops.map fun s => dist (c.stop s).position (stopPrevPosition E c s)).sum).sum_eq
    have := total_exact (dist := dist) (l := routes'.map fun r => ((c.route r).stops.map fun s => dist (c.stop s).position (stopPrevPosition E c s)).sum)
      0 IsInt.zero le_rfl (fun x hx => by
        obtain ⟨r, hr, rfl⟩ := List.mem_map.1 hx
        have hr' := h.mem_iff.2 hr
        exact ⟨IsInt.sum fun x hx => (hd r hr' x hx).1, hS0 r hr'⟩) (by rw [zero_add, ← hsum]; exact hb')
    rw [zero_add, ← hsum] at this
    rw [e]
    exact this
  refine ⟨by rw [planningValue_eq, toursOf_served], by rw [planningValue_eq, all routes (List.Perm.refl _)]; push_cast; rfl, ?_⟩
  intro routes' h
  rw [planningValue_eq, planningValue_eq, all routes' h, all routes (List.Perm.refl _), (h.map fun r => (routeTrips c r).length).sum_eq]

/-- Distances on a line, rounded. -/
def tenthsDist (a b : Pos) : ℚ := roundDouble |a.headI - b.headI|

/-- Vehicles that drive from 0 to 0.1, 0.2, 0.3 and 0.6000000000000001. -/
def tenthsEnv : Env where
  metric := tenthsDist
  trip := fun _ => { origin := { position := [0] }, destination := { position := [0] } }
  vehicle := fun v => { origin := { position := [0] }
                        destination? := some { position := [[1 / 10, 2 / 10, 3 / 10, 6000000000000001 / 10 ^ 16].getD v 0] } }

/-- A route of each vehicle. -/
def tenthsHeap : Heap := ((newRoute tenthsEnv 0 >>= fun _ => newRoute tenthsEnv 1 >>= fun _ => newRoute tenthsEnv 2 >>= fun _ =>
  newRoute tenthsEnv 3) Heap.empty).2

theorem tenthsDist_sound (a b : Pos) : 0 ≤ tenthsDist a b ∧ IsDouble (tenthsDist a b) :=
  ⟨roundDouble_nonneg (abs_nonneg _), roundDouble_repr _⟩

theorem tenthsHeap_wf : ∀ r ∈ ([0, 1, 2, 3] : List Nat), WellFormed tenthsHeap.core r := by
  intro r hr
  simp only [List.mem_cons, List.not_mem_nil, or_false] at hr
  rcases hr with rfl | rfl | rfl | rfl <;> exact wfB_sound (by decide +kernel)

/-- C126 is false without the error: `(0.1 + 0.2) + 0.3` and `(0.3 + 0.2) + 0.1` are different doubles. -/
theorem C126_order_matters : ¬ ValuesOrderFree := fun h =>
  absurd (h tenthsEnv tenthsHeap.core tenthsDist [0, 1, 2] [2, 1, 0] tenthsDist_sound
    (fun r hr => tenthsHeap_wf r (by revert hr; simp; omega)) (by decide) (by decide)) (by decide +kernel)

/-- C126 there: distances between doubles of a line are exact up to one rounding. -/
theorem tenthsDist_measures : MeasuresWithin (fun _ => True) tenthsDist (fun a b => ((|a.headI - b.headI| : ℚ) : ℝ)) (1 / 2 ^ 53) where
  nonneg := fun a b => (tenthsDist_sound a b).1
  near := fun a b _ _ => by
    have := (Rat.cast_le (K := ℝ)).2 (roundDouble_rel |a.headI - b.headI|)
    rw [abs_abs] at this
    unfold tenthsDist
    push_cast at this ⊢
    linarith

example : |(((doubles tenthsDist).planningValue tenthsEnv tenthsHeap.core [0, 1, 2]).2 : ℝ) - -(6 / 10)| ≤ (12 / 2 ^ 53) * (6 / 10) := by
  have hw : ∀ r ∈ [0, 1, 2], Chained tenthsHeap.core r := fun r hr => (tenthsHeap_wf r (by revert hr; simp; omega)).toChained
  have h := (C126_value_accuracy (E := tenthsEnv) tenthsDist_measures (by norm_num) (routes := [0, 1, 2]) (n := 2) hw
    (fun _ _ => ⟨trivial, fun _ _ => trivial⟩) (by decide +kernel) (by decide)).2
  have e : (toursOf tenthsEnv tenthsHeap.core [0, 1, 2]).length (fun a b => ((|a.headI - b.headI| : ℚ) : ℝ)) = 6 / 10 := by
    rw [toursOf_length hw]
    have : ([0, 1, 2].map fun r => ((tenthsHeap.core.route r).stops.map fun s =>
        |(tenthsHeap.core.stop s).position.headI - (stopPrevPosition tenthsEnv tenthsHeap.core s).headI|).sum).sum = 6 / 10 := by decide +kernel
    have := congrArg (fun q : ℚ => (q : ℝ)) this
    simp only [cast_list_sum, List.map_map, Function.comp_def] at this
    rw [this]
    norm_num
  rw [e] at h
  refine le_trans h (le_of_eq ?_)
  unfold lengthError
  norm_num

/-- The distances that the plane's Euclidean metric computes meet the hypothesis of C126 and C127. -/
theorem euclidean_measures {square : ℚ → ℚ} (hq : SquaresWell square) :
    MeasuresWithin (fun p => p.length ≤ 2) (euclideanRounded square) euclidean (8 / 2 ^ 53) where
  nonneg := euclideanRounded_nonneg hq
  near := fun a b ha hb => by
    have hl : (a.zip b).length ≤ 2 := by rw [List.length_zip]; exact le_trans (min_le_left _ _) ha
    refine le_trans (C121_euclidean_double hq a b (by omega)).2.2.2.2 (mul_le_mul_of_nonneg_right ?_ (Real.sqrt_nonneg _))
    have : (((a.zip b).length : ℕ) : ℝ) ≤ 2 := by exact_mod_cast hl
    exact div_le_div_of_nonneg_right (by linarith) (by positivity)

/-! ## C127 -/

theorem less_trans {a b d : ℕ × ℚ} (h1 : Reckoning.less a b = true) (h2 : Reckoning.less b d = true) : Reckoning.less a d = true := by
  simp only [Reckoning.less, Bool.or_eq_true, Bool.and_eq_true, decide_eq_true_eq] at *
  rcases h1 with h1 | ⟨h1, h1'⟩ <;> rcases h2 with h2 | ⟨h2, h2'⟩
  · left; omega
  · left; omega
  · left; omega
  · right; exact ⟨h1.trans h2, h1'.trans h2'⟩

theorem less_irrefl (a : ℕ × ℚ) : Reckoning.less a a = false := by simp [Reckoning.less]

/-- What `max` returns is among the plannings, and none is larger. -/
theorem best_spec (K : Reckoning) (E : Env) (c : Core) (l : List Nat) (ls : List (List Nat)) :
    ∃ P ∈ l :: ls, K.best E c (l :: ls) = some P ∧
      ∀ Q ∈ l :: ls, Reckoning.less (K.planningValue E c P) (K.planningValue E c Q) = false := by
  have key : ∀ (ls : List (List Nat)) (b : List Nat) (seen : List (List Nat)), b ∈ seen →
      (∀ Q ∈ seen, Reckoning.less (K.planningValue E c b) (K.planningValue E c Q) = false) →
      ls.foldl (fun b x => if Reckoning.less (K.planningValue E c b) (K.planningValue E c x) then x else b) b ∈ seen ++ ls ∧
      ∀ Q ∈ seen ++ ls, Reckoning.less (K.planningValue E c
        (ls.foldl (fun b x => if Reckoning.less (K.planningValue E c b) (K.planningValue E c x) then x else b) b)) (K.planningValue E c Q) = false := by
    intro ls
    induction ls with
    | nil => intro b seen hb hs; simpa using ⟨hb, hs⟩
    | cons x ls ih =>
      intro b seen hb hs
      have := ih (if Reckoning.less (K.planningValue E c b) (K.planningValue E c x) then x else b) (seen ++ [x])
        (by split <;> simp [hb]) (by
          intro Q hQ
          split
          · rename_i hlt
            rcases List.mem_append.1 hQ with hQ | hQ
            · by_contra h
              rw [Bool.not_eq_false] at h
              exact absurd (less_trans hlt h) (by rw [hs Q hQ]; simp)
            · rw [List.mem_singleton.1 hQ]; exact less_irrefl _
          · rename_i hlt
            rcases List.mem_append.1 hQ with hQ | hQ
            · exact hs Q hQ
            · rw [List.mem_singleton.1 hQ]; simpa using hlt)
      simpa using this
  obtain ⟨h1, h2⟩ := key ls l [l] (by simp) (by simp [less_irrefl])
  exact ⟨_, by simpa using h1, rfl, by simpa using h2⟩

/-- **C127.** The planning that `best` chooses among plannings by their values in doubles serves as many trips as any of them, and its
tours are at most `1 + 4 ε` times as long as those of any other that serves as many, where `ε` is the relative error of the lengths. -/
theorem C127_best_planning (hm : MeasuresWithin place dist δ w) (w0 : 0 ≤ w) {L : List (List Nat)} {n R : ℕ} (hL : L ≠ [])
    (hc : ∀ l ∈ L, ∀ r ∈ l, Chained c r) (hp : ∀ l ∈ L, (toursOf E c l).Within place)
    (hn : ∀ l ∈ L, ∀ r ∈ l, (c.route r).stops.length ≤ n) (hR : ∀ l ∈ L, l.length ≤ R) (hb : n + R ≤ 2 ^ 52)
    (hε : lengthError n R w ≤ 1 / 2) :
    ∃ P ∈ L, (doubles dist).best E c L = some P ∧ ∀ Q ∈ L, (toursOf E c Q).served ≤ (toursOf E c P).served ∧
      ((toursOf E c Q).served = (toursOf E c P).served →
        (toursOf E c P).length δ ≤ (1 + 4 * lengthError n R w) * (toursOf E c Q).length δ) := by
  obtain ⟨l, ls, rfl⟩ := List.exists_cons_of_ne_nil hL
  obtain ⟨P, hP, e, hmax⟩ := best_spec (doubles dist) E c l ls
  have e0 : 0 ≤ lengthError n R w := by unfold lengthError; positivity
  have acc : ∀ Q ∈ l :: ls, ((doubles dist).planningValue E c Q).1 = (toursOf E c Q).served ∧
      |(((doubles dist).planningValue E c Q).2 : ℝ) - -(toursOf E c Q).length δ| ≤ lengthError n R w * (toursOf E c Q).length δ := by
    intro Q hQ
    obtain ⟨a, b⟩ := C126_value_accuracy (E := E) hm w0 (hc Q hQ) (hp Q hQ) (hn Q hQ) (le_trans (by have := hR Q hQ; omega) hb)
    have D0 := length_nonneg hm w0 (hc Q hQ) (hp Q hQ)
    refine ⟨a, le_trans b (mul_le_mul_of_nonneg_right ?_ D0)⟩
    unfold lengthError
    have : ((Q.length : ℕ) : ℝ) ≤ R := by exact_mod_cast hR Q hQ
    have : 2 * ((n : ℝ) + Q.length) / 2 ^ 53 ≤ 2 * ((n : ℝ) + R) / 2 ^ 53 := div_le_div_of_nonneg_right (by linarith) (by positivity)
    linarith
  refine ⟨P, hP, e, fun Q hQ => ?_⟩
  have hl := hmax Q hQ
  simp only [Reckoning.less, Bool.or_eq_false_iff, Bool.and_eq_false_iff, decide_eq_false_iff_not] at hl
  obtain ⟨a1, b1⟩ := acc P hP
  obtain ⟨a2, b2⟩ := acc Q hQ
  rw [a1, a2] at hl
  refine ⟨not_lt.1 hl.1, fun he => ?_⟩
  have h3 : ((doubles dist).planningValue E c Q).2 ≤ ((doubles dist).planningValue E c P).2 := by
    rcases hl.2 with h | h
    · exact absurd he.symm h
    · exact not_lt.1 h
  have h3' := (Rat.cast_le (K := ℝ)).2 h3
  have p1 := abs_le.1 b1
  have p2 := abs_le.1 b2
  set ε := lengthError n R w
  set DP := (toursOf E c P).length δ
  set DQ := (toursOf E c Q).length δ
  have key : (1 - ε) * DP ≤ (1 + ε) * DQ := by linarith [p1.1, p1.2, p2.1, p2.2]
  have DQ0 : 0 ≤ DQ := length_nonneg hm w0 (hc Q hQ) (hp Q hQ)
  nlinarith [mul_nonneg e0 DQ0]

/-- C127 on the line; with the longer planning first, `best` takes it, as the two values are equal in doubles. -/
example : (doubles tenthsDist).best tenthsEnv tenthsHeap.core [[3], [0, 1, 2]] = some [3] ∧
    tenthsDist [1 / 10] [0] + tenthsDist [2 / 10] [0] + tenthsDist [3 / 10] [0] < tenthsDist [6000000000000001 / 10 ^ 16] [0] ∧
    ∃ P ∈ [[3], [0, 1, 2]], (doubles tenthsDist).best tenthsEnv tenthsHeap.core [[3], [0, 1, 2]] = some P ∧
      (toursOf tenthsEnv tenthsHeap.core P).length (fun a b => ((|a.headI - b.headI| : ℚ) : ℝ)) ≤
        (1 + 4 * lengthError 2 3 (1 / 2 ^ 53)) *
          (toursOf tenthsEnv tenthsHeap.core [0, 1, 2]).length (fun a b => ((|a.headI - b.headI| : ℚ) : ℝ)) := by
  refine ⟨by decide +kernel, by decide +kernel, ?_⟩
  have hw : ∀ l ∈ ([[3], [0, 1, 2]] : List (List Nat)), ∀ r ∈ l, r ∈ ([0, 1, 2, 3] : List Nat) := by decide
  obtain ⟨P, hP, e, h⟩ := C127_best_planning (E := tenthsEnv) (c := tenthsHeap.core) tenthsDist_measures (by norm_num) (L := [[3], [0, 1, 2]])
    (n := 2) (R := 3) (by simp) (fun l hl r hr => (tenthsHeap_wf r (hw l hl r hr)).toChained)
    (fun _ _ _ _ => ⟨trivial, fun _ _ => trivial⟩) (by decide +kernel) (by decide) (by decide) (by unfold lengthError; norm_num)
  have hs : ∀ l ∈ ([[3], [0, 1, 2]] : List (List Nat)), (toursOf tenthsEnv tenthsHeap.core l).served = 0 := by decide +kernel
  exact ⟨P, hP, e, (h [0, 1, 2] (by simp)).2 (by rw [hs _ (by simp), hs _ hP])⟩

end Jinete
