import Verif.Proofs.Double
import Verif.Spec.Euclidean
import Mathlib.Data.Nat.Sqrt
import Mathlib.Analysis.Real.Sqrt

/-!
# Square roots and Euclidean distances in doubles
-/

set_option autoImplicit false

namespace Jinete

/-- The unit of the last digit. -/
private theorem unit_pos (e : ℤ) : (0 : ℚ) < 2 ^ e := zpow_pos (by norm_num) e

private theorem four (e : ℤ) : (4 : ℚ) ^ e = 2 ^ e * 2 ^ e := by
  rw [← mul_zpow]; norm_num

/-- What `sqrtDouble` does with a number that is not zero: with the scaled root between `2 ^ 52` and `2 ^ 53`, the digits are
an integer `r` at a distance of at most one half from the root. -/
theorem sqrtDouble_digits {q : ℚ} (h : 0 < q) : ∃ (e : ℤ) (r : ℕ), sqrtDouble q = r * 2 ^ e ∧
    (2 ^ 52) ^ 2 ≤ q / 4 ^ e ∧ q / 4 ^ e < (2 ^ 53) ^ 2 ∧ 2 ^ 52 ≤ r ∧ r ≤ 2 ^ 53 ∧
    q / 4 ^ e ≤ (r + 1 / 2) ^ 2 ∧ ((r : ℚ) - 1 / 2) ^ 2 ≤ q / 4 ^ e := by
  have h1 : (2 : ℚ) ^ Int.log 2 q ≤ q := by
    have := Int.zpow_log_le_self (b := 2) (by norm_num) h
    exact_mod_cast this
  have h2 : q < (2 : ℚ) ^ (Int.log 2 q + 1) := by
    have := Int.lt_zpow_succ_log_self (b := 2) (by norm_num) q
    exact_mod_cast this
  generalize hl : Int.log 2 q = l at h1 h2
  generalize he : l / 2 - 52 = e
  have hp : (0 : ℚ) < 4 ^ e := zpow_pos (by norm_num) e
  have fe : (4 : ℚ) ^ e = 2 ^ (2 * e) := by rw [zpow_mul]; norm_num
  have lo : ((2 : ℚ) ^ 52) ^ 2 ≤ q / 4 ^ e := by
    rw [le_div_iff₀ hp, fe]
    have : ((2 : ℚ) ^ 52) ^ 2 = 2 ^ (104 : ℤ) := by norm_num
    rw [this, ← zpow_add₀ (by norm_num)]
    exact le_trans (zpow_le_zpow_right₀ (by norm_num) (by omega)) h1
  have hi : q / 4 ^ e < ((2 : ℚ) ^ 53) ^ 2 := by
    rw [div_lt_iff₀ hp, fe]
    have : ((2 : ℚ) ^ 53) ^ 2 = 2 ^ (106 : ℤ) := by norm_num
    rw [this, ← zpow_add₀ (by norm_num)]
    exact lt_of_lt_of_le h2 (zpow_le_zpow_right₀ (by norm_num) (by omega))
  generalize hx : q / 4 ^ e = x at lo hi
  have x0 : 0 ≤ x := le_trans (by positivity) lo
  generalize hm : Nat.sqrt ⌊x⌋₊ = m
  have m1 : (m : ℚ) ^ 2 ≤ x := by
    have := Nat.sqrt_le' ⌊x⌋₊
    rw [hm] at this
    have h3 : ((m ^ 2 : ℕ) : ℚ) ≤ (⌊x⌋₊ : ℚ) := by exact_mod_cast this
    push_cast at h3
    exact le_trans h3 (Nat.floor_le x0)
  have m2 : x < ((m : ℚ) + 1) ^ 2 := by
    have := Nat.lt_succ_sqrt' ⌊x⌋₊
    rw [hm] at this
    have h3 : ((⌊x⌋₊ + 1 : ℕ) : ℚ) ≤ ((m.succ ^ 2 : ℕ) : ℚ) := by exact_mod_cast this
    push_cast at h3
    exact lt_of_lt_of_le (Nat.lt_floor_add_one x) h3
  have mlo : 2 ^ 52 ≤ m := by
    by_contra hc
    have : (m : ℚ) + 1 ≤ 2 ^ 52 := by exact_mod_cast Nat.lt_of_not_le hc
    have := pow_le_pow_left₀ (by positivity) this 2
    linarith
  have mhi : m < 2 ^ 53 := by
    by_contra hc
    have : (2 : ℚ) ^ 53 ≤ m := by exact_mod_cast Nat.le_of_not_lt hc
    have := pow_le_pow_left₀ (by positivity) this 2
    linarith
  have hm0 : (1 : ℚ) ≤ m := by
    have : 1 ≤ m := le_trans (by norm_num) mlo
    exact_mod_cast this
  have def_ : sqrtDouble q = (if x < (m + 1 / 2) ^ 2 ∨ x = (m + 1 / 2) ^ 2 ∧ m % 2 = 0 then (m : ℚ) else m + 1) * 2 ^ e := by
    unfold sqrtDouble
    simp only [hl, he, hx, hm]
  by_cases hc : x < (m + 1 / 2) ^ 2 ∨ x = (m + 1 / 2) ^ 2 ∧ m % 2 = 0
  · rw [if_pos hc] at def_
    refine ⟨e, m, def_, by rw [hx]; exact lo, by rw [hx]; exact hi, mlo, mhi.le, ?_, ?_⟩
    · rw [hx]; rcases hc with hc | hc
      · exact hc.le
      · exact hc.1.le
    · rw [hx]; nlinarith
  · rw [if_neg hc] at def_
    have hge : ((m : ℚ) + 1 / 2) ^ 2 ≤ x := by
      by_contra hn
      exact hc (.inl (lt_of_not_ge hn))
    refine ⟨e, m + 1, by rw [def_]; push_cast; ring, by rw [hx]; exact lo, by rw [hx]; exact hi, by omega, by omega, ?_, ?_⟩
    · rw [hx]; push_cast; nlinarith
    · rw [hx]; push_cast
      refine le_trans (le_of_eq ?_) hge
      ring

theorem sqrtDouble_zero : sqrtDouble 0 = 0 := by decide +kernel

theorem sqrtDouble_pos {q : ℚ} (h : 0 < q) : 0 < sqrtDouble q := by
  obtain ⟨e, r, h1, _, _, h2, _⟩ := sqrtDouble_digits h
  rw [h1]
  refine mul_pos ?_ (unit_pos e)
  have : 0 < r := lt_of_lt_of_le (by norm_num) h2
  exact_mod_cast this

theorem sqrtDouble_nonneg {q : ℚ} (h : 0 ≤ q) : 0 ≤ sqrtDouble q := by
  rcases h.lt_or_eq with h | rfl
  · exact (sqrtDouble_pos h).le
  · rw [sqrtDouble_zero]

/-- The result is a double. -/
theorem sqrtDouble_repr {q : ℚ} (h : 0 ≤ q) : ∃ (m : ℤ) (k : ℤ), |m| < 2 ^ 53 ∧ sqrtDouble q = m * 2 ^ k := by
  rcases h.lt_or_eq with h | rfl
  · obtain ⟨e, r, h1, _, _, _, h2, _⟩ := sqrtDouble_digits h
    rcases h2.lt_or_eq with h2 | h2
    · exact ⟨r, e, by rw [abs_of_nonneg (by positivity)]; exact_mod_cast h2, by rw [h1]; push_cast; rfl⟩
    · refine ⟨1, 53 + e, by norm_num, ?_⟩
      rw [h1, h2, zpow_add₀ (by norm_num)]
      norm_num
  · exact ⟨0, 0, by norm_num, by rw [sqrtDouble_zero]; simp⟩

/-- No double lies nearer to the root. -/
theorem sqrtDouble_nearest {q : ℚ} (h : 0 ≤ q) {m : ℤ} (hm : |m| < 2 ^ 53) (k : ℤ) :
    |(sqrtDouble q : ℝ) - Real.sqrt q| ≤ |(m : ℝ) * 2 ^ k - Real.sqrt q| := by
  rcases h.lt_or_eq with h | rfl
  swap
  · rw [sqrtDouble_zero]; simp [abs_mul]; positivity
  obtain ⟨e, r, h1, lo, hi, r1, r2, a, b⟩ := sqrtDouble_digits h
  have hu : (0 : ℝ) < 2 ^ e := zpow_pos (by norm_num) e
  generalize hx : q / 4 ^ e = x at lo hi a b
  have x0 : 0 ≤ x := le_trans (by positivity) lo
  have hq : (q : ℝ) = x * (2 ^ e) ^ 2 := by
    have : q = x * 4 ^ e := by rw [← hx]; exact (div_mul_cancel₀ _ (zpow_pos (by norm_num) e).ne').symm
    rw [this, four]; push_cast; ring
  have hs : Real.sqrt q = Real.sqrt x * 2 ^ e := by
    rw [hq, Real.sqrt_mul (by exact_mod_cast x0), Real.sqrt_sq hu.le]
  have y1 : (2 : ℝ) ^ 52 ≤ Real.sqrt x := Real.le_sqrt_of_sq_le (by exact_mod_cast lo)
  have ya : Real.sqrt x ≤ r + 1 / 2 := Real.sqrt_le_iff.2 ⟨by positivity, by have := (Rat.cast_le (K := ℝ)).2 a; push_cast at this; exact this⟩
  have yb : (r : ℝ) - 1 / 2 ≤ Real.sqrt x := Real.le_sqrt_of_sq_le (by have := (Rat.cast_le (K := ℝ)).2 b; push_cast at this; exact this)
  generalize Real.sqrt x = y at hs y1 ya yb
  have near : |(r : ℝ) - y| ≤ 1 / 2 := by rw [abs_le]; constructor <;> linarith
  have mult : ∀ n : ℤ, |(sqrtDouble q : ℝ) - Real.sqrt q| ≤ |(n : ℝ) * 2 ^ e - Real.sqrt q| := by
    intro n
    rw [h1, hs]
    push_cast
    rw [← sub_mul, ← sub_mul, abs_mul, abs_mul]
    refine mul_le_mul_of_nonneg_right ?_ (abs_nonneg _)
    by_cases hn : n = r
    · rw [hn]; push_cast; exact le_refl _
    · have h3 : (1 : ℝ) ≤ |(n : ℝ) - r| := by
        have : 1 ≤ |n - (r : ℤ)| := Int.one_le_abs (sub_ne_zero.2 hn)
        exact_mod_cast this
      have h4 := abs_sub_le (n : ℝ) y r
      rw [abs_sub_comm y] at h4
      linarith
  rcases le_or_gt e k with hk | hk
  · obtain ⟨j, hj⟩ : ∃ j : ℕ, k - e = j := ⟨_, (Int.toNat_of_nonneg (by omega)).symm⟩
    have := mult (m * 2 ^ j)
    push_cast at this
    rw [mul_assoc, ← zpow_natCast (2 : ℝ) j, ← zpow_add₀ (by norm_num), ← hj, sub_add_cancel] at this
    exact this
  · have h3 := mult (2 ^ 52)
    rw [show ((2 ^ 52 : ℤ) : ℝ) = 2 ^ 52 by norm_num] at h3
    have hle : (2 : ℝ) ^ 52 * 2 ^ e ≤ Real.sqrt q := by rw [hs]; exact mul_le_mul_of_nonneg_right y1 hu.le
    have hxx : (m : ℝ) * 2 ^ k ≤ 2 ^ 52 * 2 ^ e := by
      have a1 : (m : ℝ) ≤ 2 ^ (53 : ℤ) := by
        have : m ≤ 2 ^ 53 := le_trans (le_abs_self m) hm.le
        have : (m : ℝ) ≤ ((2 ^ 53 : ℤ) : ℝ) := by exact_mod_cast this
        refine le_trans this (le_of_eq ?_); norm_num
      have a2 : (2 : ℝ) ^ (53 + k) ≤ 2 ^ (52 + e) := zpow_le_zpow_right₀ (by norm_num) (by omega)
      have a3 := mul_le_mul_of_nonneg_right a1 (zpow_pos (by norm_num : (0 : ℝ) < 2) k).le
      rw [← zpow_add₀ (by norm_num)] at a3
      rw [zpow_add₀ (by norm_num) 52 e] at a2
      have e52 : (2 : ℝ) ^ (52 : ℤ) = 2 ^ 52 := by norm_num
      rw [e52] at a2
      linarith
    rw [abs_of_nonpos (by linarith : (2 : ℝ) ^ 52 * 2 ^ e - Real.sqrt q ≤ 0)] at h3
    rw [abs_of_nonpos (by linarith : (m : ℝ) * 2 ^ k - Real.sqrt q ≤ 0)]
    linarith

/-- The relative error of a square root, in terms of squares. -/
theorem sqrtDouble_rel {q : ℚ} (h : 0 ≤ q) : (1 - halfUnit) ^ 2 * q ≤ sqrtDouble q ^ 2 ∧ sqrtDouble q ^ 2 ≤ (1 + halfUnit) ^ 2 * q := by
  rcases h.lt_or_eq with h | rfl
  swap
  · rw [sqrtDouble_zero]; norm_num
  obtain ⟨e, r, h1, lo, hi, r1, r2, a, b⟩ := sqrtDouble_digits h
  have hu := unit_pos e
  generalize hx : q / 4 ^ e = x at lo hi a b
  have hq : q = x * (2 ^ e) ^ 2 := by
    have : q = x * 4 ^ e := by rw [← hx]; exact (div_mul_cancel₀ _ (zpow_pos (by norm_num) e).ne').symm
    rw [this, four]; ring
  have hr : (2 : ℚ) ^ 52 ≤ r := by exact_mod_cast r1
  rw [h1, mul_pow]
  conv => lhs; rw [hq]
  conv => rhs; rw [hq]
  rw [← mul_assoc, ← mul_assoc]
  have key : (1 - halfUnit) ^ 2 * x ≤ (r : ℚ) ^ 2 ∧ (r : ℚ) ^ 2 ≤ (1 + halfUnit) ^ 2 * x := by
    have x0 : 0 ≤ x := le_trans (by positivity) lo
    have y1 : (2 : ℝ) ^ 52 ≤ Real.sqrt x := Real.le_sqrt_of_sq_le (by exact_mod_cast lo)
    have ya : Real.sqrt x ≤ r + 1 / 2 := Real.sqrt_le_iff.2 ⟨by positivity, by have := (Rat.cast_le (K := ℝ)).2 a; push_cast at this; exact this⟩
    have yb : (r : ℝ) - 1 / 2 ≤ Real.sqrt x := Real.le_sqrt_of_sq_le (by have := (Rat.cast_le (K := ℝ)).2 b; push_cast at this; exact this)
    have y2 : Real.sqrt x ^ 2 = x := Real.sq_sqrt (by exact_mod_cast x0)
    have hv : (halfUnit : ℝ) = 1 / 2 ^ 53 := by unfold halfUnit; norm_num
    generalize Real.sqrt x = y at y1 ya yb y2
    have hvy : 1 / 2 ≤ (halfUnit : ℝ) * y := by
      rw [hv]; norm_num at y1 ⊢; linarith
    have k1 : (1 - (halfUnit : ℝ)) * y ≤ r := by linarith
    have k2 : (r : ℝ) ≤ (1 + (halfUnit : ℝ)) * y := by linarith
    have hy : 0 ≤ y := le_trans (by positivity) y1
    have hv1 : 0 ≤ 1 - (halfUnit : ℝ) := by rw [hv]; norm_num
    have k3 := pow_le_pow_left₀ (mul_nonneg hv1 hy) k1 2
    have k4 := pow_le_pow_left₀ (by positivity) k2 2
    rw [mul_pow, y2] at k3 k4
    exact ⟨by exact_mod_cast k3, by exact_mod_cast k4⟩
  exact ⟨mul_le_mul_of_nonneg_right key.1 (by positivity), mul_le_mul_of_nonneg_right key.2 (by positivity)⟩

/-! ## Sums -/

theorem halfUnit_pos : 0 < halfUnit := by unfold halfUnit; norm_num

theorem halfUnit_lt : halfUnit < 1 := by unfold halfUnit; norm_num

/-- Rounding a number that is not negative multiplies it by a factor close to one. -/
theorem roundDouble_factor {q : ℚ} (h : 0 ≤ q) : (1 - halfUnit) * q ≤ roundDouble q ∧ roundDouble q ≤ (1 + halfUnit) * q := by
  have := roundDouble_rel q
  rw [abs_of_nonneg h, abs_le] at this
  have e : q / 2 ^ 53 = halfUnit * q := by unfold halfUnit; ring
  rw [e] at this
  constructor <;> linarith [this.1, this.2]

theorem roundDouble_square (q : ℚ) : (1 - halfUnit) ^ 2 * q ^ 2 ≤ roundDouble q ^ 2 ∧ roundDouble q ^ 2 ≤ (1 + halfUnit) ^ 2 * q ^ 2 := by
  have pos : ∀ {q : ℚ}, 0 ≤ q → (1 - halfUnit) ^ 2 * q ^ 2 ≤ roundDouble q ^ 2 ∧ roundDouble q ^ 2 ≤ (1 + halfUnit) ^ 2 * q ^ 2 := by
    intro q h
    have h1 := roundDouble_factor h
    have h2 : 0 ≤ (1 - halfUnit) * q := mul_nonneg (by linarith [halfUnit_lt]) h
    rw [← mul_pow, ← mul_pow]
    exact ⟨pow_le_pow_left₀ h2 h1.1 2, pow_le_pow_left₀ (roundDouble_nonneg h) h1.2 2⟩
  rcases le_total 0 q with h | h
  · exact pos h
  · have := pos (q := -q) (by linarith)
    rw [roundDouble_neg] at this
    simpa using this

/-- Adding numbers that are not negative, with a rounding after every addition. -/
theorem foldl_factor (l : List ℚ) : ∀ z : ℚ, 0 ≤ z → (∀ x ∈ l, 0 ≤ x) →
    (1 - halfUnit) ^ l.length * (z + l.sum) ≤ l.foldl (fun s x => roundDouble (s + x)) z ∧
    l.foldl (fun s x => roundDouble (s + x)) z ≤ (1 + halfUnit) ^ l.length * (z + l.sum) := by
  have v0 := halfUnit_pos
  have v1 := halfUnit_lt
  induction l with
  | nil => intro z hz _; simp
  | cons x l ih =>
    intro z hz hl
    have hx : 0 ≤ z + x := add_nonneg hz (hl x (by simp))
    have hs : 0 ≤ l.sum := List.sum_nonneg fun y hy => hl y (by simp [hy])
    have r := roundDouble_factor hx
    obtain ⟨a, b⟩ := ih (roundDouble (z + x)) (roundDouble_nonneg hx) fun y hy => hl y (by simp [hy])
    simp only [List.foldl_cons, List.length_cons, List.sum_cons, pow_succ]
    have p1 : 0 ≤ (1 - halfUnit) ^ l.length := pow_nonneg (by linarith) _
    have p2 : 0 ≤ (1 + halfUnit) ^ l.length := pow_nonneg (by linarith) _
    constructor
    · refine le_trans ?_ a
      rw [mul_assoc]
      refine mul_le_mul_of_nonneg_left ?_ p1
      nlinarith
    · refine le_trans b ?_
      rw [mul_assoc]
      refine mul_le_mul_of_nonneg_left ?_ p2
      nlinarith

/-! ## Distances -/

section
variable {square : ℚ → ℚ} (hq : SquaresWell square) (a b : Pos)
include hq

/-- The computed squares of the differences of coordinates. -/
def squares (square : ℚ → ℚ) (a b : Pos) : List ℚ := (a.zip b).map fun p => square (roundDouble (p.1 - p.2))

theorem squares_nonneg : ∀ x ∈ squares square a b, 0 ≤ x := by
  intro x hx
  obtain ⟨p, _, rfl⟩ := List.mem_map.1 hx
  exact le_trans (mul_nonneg (sq_nonneg _) (sq_nonneg _)) (hq.low _)

theorem squares_sum : (1 - halfUnit) ^ 4 * euclideanSq a b ≤ (squares square a b).sum ∧
    (squares square a b).sum ≤ (1 + halfUnit) ^ 4 * euclideanSq a b := by
  unfold squares euclideanSq
  have one : ∀ x : ℚ, (1 - halfUnit) ^ 4 * x ^ 2 ≤ square (roundDouble x) ∧ square (roundDouble x) ≤ (1 + halfUnit) ^ 4 * x ^ 2 := by
    intro x
    have h1 := roundDouble_square x
    have h2 := hq.low (roundDouble x)
    have h3 := hq.high (roundDouble x)
    have p1 : 0 ≤ (1 - halfUnit) ^ 2 := sq_nonneg _
    have p2 : 0 ≤ (1 + halfUnit) ^ 2 := sq_nonneg _
    have k1 := mul_le_mul_of_nonneg_left h1.1 p1
    have k2 := mul_le_mul_of_nonneg_left h1.2 p2
    constructor
    · refine le_trans (le_of_eq ?_) (le_trans k1 h2); ring
    · refine le_trans (le_trans h3 k2) (le_of_eq ?_); ring
  induction a.zip b with
  | nil => simp
  | cons p l ih =>
    simp only [List.map_cons, List.sum_cons, mul_add]
    have := one (p.1 - p.2)
    constructor <;> linarith [this.1, this.2, ih.1, ih.2]

/-- The radicand. -/
theorem radicand : 0 ≤ (squares square a b).foldl (fun s x => roundDouble (s + x)) 0 ∧
    (1 - halfUnit) ^ ((a.zip b).length + 4) * euclideanSq a b ≤ (squares square a b).foldl (fun s x => roundDouble (s + x)) 0 ∧
    (squares square a b).foldl (fun s x => roundDouble (s + x)) 0 ≤ (1 + halfUnit) ^ ((a.zip b).length + 4) * euclideanSq a b := by
  obtain ⟨h1, h2⟩ := foldl_factor (squares square a b) 0 le_rfl (squares_nonneg hq a b)
  obtain ⟨k1, k2⟩ := squares_sum hq a b
  have el : (squares square a b).length = (a.zip b).length := by simp [squares]
  have p1 : 0 ≤ (1 - halfUnit) ^ (a.zip b).length := pow_nonneg (by linarith [halfUnit_lt]) _
  have p2 : 0 ≤ (1 + halfUnit) ^ (a.zip b).length := pow_nonneg (by linarith [halfUnit_pos]) _
  have p0 : 0 ≤ (squares square a b).sum := List.sum_nonneg (squares_nonneg hq a b)
  rw [el, zero_add] at h1 h2
  refine ⟨le_trans (mul_nonneg p1 p0) h1, ?_, ?_⟩
  · rw [pow_add, mul_assoc]
    exact le_trans (mul_le_mul_of_nonneg_left k1 p1) h1
  · rw [pow_add, mul_assoc]
    exact le_trans h2 (mul_le_mul_of_nonneg_left k2 p2)

theorem euclideanRounded_nonneg : 0 ≤ euclideanRounded square a b := sqrtDouble_nonneg (radicand hq a b).1

/-- The error of the square of a distance. -/
theorem euclideanRounded_sq :
    (1 - halfUnit) ^ ((a.zip b).length + 6) * euclideanSq a b ≤ euclideanRounded square a b ^ 2 ∧
    euclideanRounded square a b ^ 2 ≤ (1 + halfUnit) ^ ((a.zip b).length + 6) * euclideanSq a b := by
  obtain ⟨h0, h1, h2⟩ := radicand hq a b
  obtain ⟨k1, k2⟩ := sqrtDouble_rel h0
  have p1 : 0 ≤ (1 - halfUnit) ^ 2 := sq_nonneg _
  have p2 : 0 ≤ (1 + halfUnit) ^ 2 := sq_nonneg _
  constructor
  · refine le_trans (le_of_eq ?_) (le_trans (mul_le_mul_of_nonneg_left h1 p1) k1)
    ring
  · refine le_trans (le_trans k2 (mul_le_mul_of_nonneg_left h2 p2)) (le_of_eq ?_)
    ring

theorem euclideanRounded_symm : euclideanRounded square a b = euclideanRounded square b a := by
  unfold euclideanRounded
  congr 1
  suffices h : ∀ (a b : Pos), ((a.zip b).map fun p => square (roundDouble (p.1 - p.2))) = (b.zip a).map fun p => square (roundDouble (p.1 - p.2)) by
    rw [h]
  intro a
  induction a with
  | nil => intro b; cases b <;> rfl
  | cons x a ih =>
    intro b
    cases b with
    | nil => rfl
    | cons y b =>
      simp only [List.zip_cons_cons, List.map_cons, ih b]
      rw [← neg_sub y x, roundDouble_neg, hq.even]

end

/-! ## Powers of factors close to one -/

theorem pow_upper {v : ℚ} (hv : 0 ≤ v) (m : ℕ) (h : 2 * (m : ℚ) * v ≤ 1) : (1 + v) ^ m ≤ (1 + m * v) ^ 2 := by
  suffices h' : (1 + v) ^ m ≤ 1 + 2 * m * v by
    refine le_trans h' ?_
    nlinarith [mul_nonneg (Nat.cast_nonneg (α := ℚ) m) hv]
  induction m with
  | zero => simp
  | succ m ih =>
    push_cast at h ⊢
    have h1 := ih (by nlinarith)
    rw [pow_succ]
    have h2 := mul_le_mul_of_nonneg_right h1 (by linarith : (0 : ℚ) ≤ 1 + v)
    refine le_trans h2 ?_
    nlinarith

theorem pow_lower {v : ℚ} (hv : 0 ≤ v) (m : ℕ) (h : 2 * (m : ℚ) * v ≤ 1) (h1 : v ≤ 1) : (1 - m * v) ^ 2 ≤ (1 - v) ^ m := by
  have h2 := one_add_mul_le_pow (a := -v) (by linarith) m
  have h3 : 1 + (m : ℚ) * -v = 1 - m * v := by ring
  rw [h3] at h2
  have h4 : 0 ≤ (m : ℚ) * v := mul_nonneg (Nat.cast_nonneg m) hv
  rw [← sub_eq_add_neg] at h2
  refine le_trans ?_ h2
  nlinarith

end Jinete
