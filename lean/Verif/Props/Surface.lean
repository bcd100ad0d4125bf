import Verif.Model.Surface
import Mathlib.Analysis.Real.Sqrt
import Mathlib.Tactic.Positivity

/-!
# C01, C02, C03: surfaces
-/

set_option autoImplicit false

namespace Jinete

/-! ## C01 -/

/-- The calls a user can make on a surface. -/
inductive SurfaceOp
  | distance (a b : Pos)
  | time (a b : Pos) (now : Option ℚ)
  | getOrCreate (c : Pos)

/-- State after one call. -/
def SurfaceOp.exec {D : Type} (metric : Pos → Pos → D) : SurfaceOp → SurfaceState D → SurfaceState D
  | .distance a b, s => (surfaceDistance metric a b s).2
  | .time a b now, s => (surfaceTime metric a b now s).2
  | .getOrCreate c, s => (getOrCreatePosition c s).2

theorem surfaceDistance_ok {D : Type} (metric : Pos → Pos → D) (s : SurfaceState D)
    (h : ∀ a b d, s.cached a b = some d → d = metric a b) (a b : Pos) :
    (surfaceDistance metric a b s).1 = .ok (metric a b) ∧
    ∀ a' b' d, (surfaceDistance metric a b s).2.cached a' b' = some d → d = metric a' b' := by
  unfold surfaceDistance
  simp only [Py.read_bind]
  cases hc : s.cached a b with
  | some d => simpa [h a b d hc] using h
  | none =>
    simp only [Py.modify_bind, Py.pure_run, true_and]
    intro a' b' d hd
    by_cases ha : a' = a
    · subst ha
      by_cases hb : b' = b
      · subst hb; simpa using hd.symm
      · simp only [Function.update_self, Function.update_of_ne hb] at hd
        exact h _ _ _ hd
    · simp only [Function.update_of_ne ha] at hd
      exact h _ _ _ hd

theorem surfaceOps_cached {D : Type} (metric : Pos → Pos → D) (ops : List SurfaceOp)
    (s : SurfaceState D) (h : ∀ a b d, s.cached a b = some d → d = metric a b) :
    ∀ a b d, (ops.foldl (fun s o => o.exec metric s) s).cached a b = some d → d = metric a b := by
  induction ops generalizing s with
  | nil => simpa using h
  | cons o ops ih =>
    apply ih
    cases o with
    | distance a b => exact (surfaceDistance_ok metric s h a b).2
    | time a b now => exact (surfaceDistance_ok metric s h a b).2
    | getOrCreate c =>
      simp only [SurfaceOp.exec, getOrCreatePosition, Py.read_bind]
      split
      · simpa using h
      · simpa using h

/-- **C01.** Whatever calls a surface has answered before, `distance` and `time` return the metric
evaluated on the coordinates asked for, in the order asked, and raise nothing. -/
theorem C01_distance_cache_transparent {D : Type} (metric : Pos → Pos → D) (positions : List Pos)
    (history : List SurfaceOp) (a b : Pos) (now : Option ℚ) :
    (surfaceDistance metric a b
      (history.foldl (fun s o => o.exec metric s) (SurfaceState.new positions))).1 = .ok (metric a b) ∧
    (surfaceTime metric a b now
      (history.foldl (fun s o => o.exec metric s) (SurfaceState.new positions))).1 = .ok (metric a b) := by
  have h := surfaceOps_cached metric history (SurfaceState.new positions) (by simp [SurfaceState.new])
  exact ⟨(surfaceDistance_ok metric _ h a b).1, (surfaceDistance_ok metric _ h a b).1⟩

/-- Non-trivial instance of C01: an asymmetric metric, with both orders of the pair already cached. -/
example : (surfaceDistance (fun a b => a.sum - 2 * b.sum) [1] [2]
    ([SurfaceOp.distance [1] [2], .distance [2] [1], .distance [1] [2]].foldl
      (fun s o => o.exec (fun a b => a.sum - 2 * b.sum) s) (SurfaceState.new []))).1 = .ok (-3) := by
  rw [(C01_distance_cache_transparent _ _ _ _ _ none).1]; norm_num

/-! ## C02 -/

/-- `DistanceMetric._euclidean_distance`, jinete/models/constants.py:80-82, over the reals. -/
noncomputable def euclidean (a b : Pos) : ℝ := Real.sqrt ((euclideanSq a b : ℚ) : ℝ)

/-- The axioms of a metric on positions of a common dimension. -/
structure IsMetric {D : Type} [LinearOrder D] [AddCommGroup D] (d : Pos → Pos → D) : Prop where
  nonneg : ∀ a b : Pos, a.length = b.length → 0 ≤ d a b
  symm : ∀ a b : Pos, a.length = b.length → d a b = d b a
  eq_zero_iff : ∀ a b : Pos, a.length = b.length → (d a b = 0 ↔ a = b)
  triangle : ∀ a b c : Pos, a.length = b.length → b.length = c.length → d a c ≤ d a b + d b c

@[simp] theorem manhattan_cons (x y : ℚ) (a b : Pos) :
    manhattan (x :: a) (y :: b) = |x - y| + manhattan a b := by simp [manhattan]
@[simp] theorem manhattan_nil : manhattan [] [] = 0 := by simp [manhattan]
@[simp] theorem euclideanSq_cons (x y : ℚ) (a b : Pos) :
    euclideanSq (x :: a) (y :: b) = (x - y) ^ 2 + euclideanSq a b := by simp [euclideanSq]
@[simp] theorem euclideanSq_nil : euclideanSq [] [] = 0 := by simp [euclideanSq]

theorem manhattan_nonneg (a b : Pos) : 0 ≤ manhattan a b := by
  apply List.sum_nonneg
  simp only [List.mem_map]
  rintro _ ⟨p, _, rfl⟩
  exact abs_nonneg _

theorem euclideanSq_nonneg (a b : Pos) : 0 ≤ euclideanSq a b := by
  apply List.sum_nonneg
  simp only [List.mem_map]
  rintro _ ⟨p, _, rfl⟩
  exact sq_nonneg _

/-- Two-dimensional Minkowski inequality. -/
theorem minkowski2 (x y A B : ℝ) :
    Real.sqrt ((x + y) ^ 2 + (A + B) ^ 2) ≤ Real.sqrt (x ^ 2 + A ^ 2) + Real.sqrt (y ^ 2 + B ^ 2) := by
  have h1 := Real.sqrt_nonneg (x ^ 2 + A ^ 2)
  have h2 := Real.sqrt_nonneg (y ^ 2 + B ^ 2)
  have e1 := Real.sq_sqrt (show 0 ≤ x ^ 2 + A ^ 2 by positivity)
  have e2 := Real.sq_sqrt (show 0 ≤ y ^ 2 + B ^ 2 by positivity)
  apply Real.sqrt_le_iff.2
  refine ⟨by positivity, ?_⟩
  have key : x * y + A * B ≤ Real.sqrt (x ^ 2 + A ^ 2) * Real.sqrt (y ^ 2 + B ^ 2) := by
    rw [← Real.sqrt_mul (by positivity)]
    apply Real.le_sqrt_of_sq_le
    nlinarith [sq_nonneg (x * B - y * A)]
  nlinarith

theorem manhattan_isMetric : IsMetric manhattan where
  nonneg a b _ := manhattan_nonneg a b
  symm a b h := by
    induction a generalizing b with
    | nil => cases b <;> simp_all
    | cons x a ih =>
      cases b with
      | nil => simp at h
      | cons y b => simp [abs_sub_comm x y, ih b (by simpa using h)]
  eq_zero_iff a b h := by
    induction a generalizing b with
    | nil => cases b <;> simp_all
    | cons x a ih =>
      cases b with
      | nil => simp at h
      | cons y b =>
        have := ih b (by simpa using h)
        have h1 := abs_nonneg (x - y)
        have h2 := manhattan_nonneg a b
        simp only [manhattan_cons, List.cons.injEq]
        constructor
        · intro h0
          have hx : |x - y| = 0 := by linarith
          have ha : manhattan a b = 0 := by linarith
          exact ⟨by linarith [abs_eq_zero.1 hx], this.1 ha⟩
        · rintro ⟨rfl, rfl⟩
          simp [this.2 rfl]
  triangle a b c h h' := by
    induction a generalizing b c with
    | nil =>
      cases b with
      | nil => cases c with
        | nil => simp
        | cons => simp at h'
      | cons => simp at h
    | cons x a ih =>
      cases b with
      | nil => simp at h
      | cons y b => cases c with
        | nil => simp at h'
        | cons z c =>
          have := ih b c (by simpa using h) (by simpa using h')
          have := abs_sub_le x y z
          simp only [manhattan_cons]
          linarith

theorem euclidean_sq (a b : Pos) : euclidean a b ^ 2 = ((euclideanSq a b : ℚ) : ℝ) :=
  Real.sq_sqrt (by exact_mod_cast euclideanSq_nonneg a b)

theorem euclidean_cons (x y : ℚ) (a b : Pos) :
    euclidean (x :: a) (y :: b) = Real.sqrt (((x : ℝ) - y) ^ 2 + euclidean a b ^ 2) := by
  rw [euclidean_sq, euclidean]; simp

theorem euclidean_isMetric : IsMetric euclidean where
  nonneg a b _ := Real.sqrt_nonneg _
  symm a b h := by
    induction a generalizing b with
    | nil => cases b <;> simp_all
    | cons x a ih =>
      cases b with
      | nil => simp at h
      | cons y b =>
        rw [euclidean_cons, euclidean_cons, ih b (by simpa using h)]
        congr 2; ring
  eq_zero_iff a b h := by
    induction a generalizing b with
    | nil => cases b <;> simp_all [euclidean]
    | cons x a ih =>
      cases b with
      | nil => simp at h
      | cons y b =>
        have := ih b (by simpa using h)
        rw [euclidean_cons, Real.sqrt_eq_zero (by positivity)]
        simp only [List.cons.injEq, ← this]
        constructor
        · intro h0
          have h1 : ((x : ℝ) - y) ^ 2 = 0 := by nlinarith [sq_nonneg ((x : ℝ) - y), sq_nonneg (euclidean a b)]
          have h2 : euclidean a b ^ 2 = 0 := by nlinarith [sq_nonneg ((x : ℝ) - y), sq_nonneg (euclidean a b)]
          have h1 := pow_eq_zero_iff (two_ne_zero) |>.1 h1
          exact ⟨by exact_mod_cast sub_eq_zero.1 h1, pow_eq_zero_iff (two_ne_zero) |>.1 h2⟩
        · rintro ⟨rfl, h0⟩
          simp [h0]
  triangle a b c h h' := by
    induction a generalizing b c with
    | nil =>
      cases b with
      | nil => cases c with
        | nil => simp [euclidean]
        | cons => simp at h'
      | cons => simp at h
    | cons x a ih =>
      cases b with
      | nil => simp at h
      | cons y b => cases c with
        | nil => simp at h'
        | cons z c =>
          have h1 := ih b c (by simpa using h) (by simpa using h')
          rw [euclidean_cons, euclidean_cons, euclidean_cons]
          refine le_trans ?_ (minkowski2 _ _ _ _)
          apply Real.sqrt_le_sqrt
          have h0 : 0 ≤ euclidean a c := Real.sqrt_nonneg _
          have : euclidean a c ^ 2 ≤ (euclidean a b + euclidean b c) ^ 2 := by
            apply pow_le_pow_left₀ h0 h1
          have e : ((x : ℝ) - z) ^ 2 = ((x : ℝ) - y + ((y : ℝ) - z)) ^ 2 := by ring
          rw [e]
          exact add_le_add le_rfl this

/-- **C02.** Manhattan and Euclidean distance are metrics on positions of a common dimension. -/
theorem C02_metrics : IsMetric manhattan ∧ IsMetric euclidean :=
  ⟨manhattan_isMetric, euclidean_isMetric⟩

/-- The dimension hypothesis is met by, and the distances are not constant on, ordinary data. -/
example : manhattan [0, 0] [3, 4] = 7 ∧ euclideanSq [0, 0] [3, 4] = 25 ∧
    ([0, 0] : Pos).length = ([3, 4] : Pos).length := by decide +kernel

/-- The common dimension is needed: `zip` truncates, so distinct positions of different dimensions
are at distance zero. -/
theorem C02_truncation_witness : manhattan [1] [1, 5] = 0 ∧ ([1] : Pos) ≠ [1, 5] := by decide +kernel

/-! ## C03 -/

/-- Run `get_or_create_position` on each request in turn, collecting the returned positions. -/
def requestAll {D : Type} (requests : List Pos) : Py (SurfaceState D) (List Pos) :=
  Py.mapEach requests getOrCreatePosition

/-- **C03.** After any sequence of `get_or_create_position` calls the surface knows exactly the initial
coordinates and the requested ones, each once, and every call returned the requested coordinates;
cached distances are untouched. -/
theorem C03_positions {D : Type} (requests : List Pos) (s : SurfaceState D) (hs : s.positions.Nodup) :
    (requestAll requests s).1 = .ok requests ∧
    (requestAll requests s).2.positions.Nodup ∧
    (∀ c, c ∈ (requestAll requests s).2.positions ↔ c ∈ s.positions ∨ c ∈ requests) ∧
    (requestAll requests s).2.cached = s.cached := by
  induction requests generalizing s with
  | nil => exact ⟨rfl, hs, by simp [requestAll, Py.mapEach], rfl⟩
  | cons c cs ih =>
    have step : ∃ s', getOrCreatePosition c s = (.ok c, s') ∧ s'.positions.Nodup ∧
        (∀ x, x ∈ s'.positions ↔ x ∈ s.positions ∨ x = c) ∧ s'.cached = s.cached := by
      unfold getOrCreatePosition
      simp only [Py.read_bind]
      by_cases hc : c ∈ s.positions
      · refine ⟨s, by simp [hc], hs, ?_, rfl⟩
        intro x
        constructor
        · exact Or.inl
        · rintro (h | rfl) <;> assumption
      · refine ⟨{ s with positions := c :: s.positions }, by simp [hc], ?_, ?_, rfl⟩
        · simpa [hc] using hs
        · intro x; simp [or_comm]
    obtain ⟨s', e, hn, hm, hcd⟩ := step
    obtain ⟨i1, i2, i3, i4⟩ := ih s' hn
    have run : requestAll (c :: cs) s =
        ((requestAll cs s').1.map (c :: ·), (requestAll cs s').2) := by
      unfold requestAll
      rw [Py.mapEach, Py.bind_ok e, Py.bind_run]
      rcases Py.mapEach cs getOrCreatePosition s' with ⟨r, s''⟩
      cases r <;> rfl
    rw [run]
    refine ⟨by rw [i1]; rfl, i2, ?_, by rw [i4, hcd]⟩
    intro x
    simp only [i3, hm, List.mem_cons]
    tauto

/-- Instance: a request already known, a new one, and a repetition. -/
example : (requestAll [[1], [2], [2]] (SurfaceState.new (D := ℚ) [[1]])).2.positions = [[2], [1]] := by
  decide +kernel

end Jinete
