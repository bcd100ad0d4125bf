import Verif.Proofs.Columns
import Verif.Model.Rounded
import Mathlib.Algebra.Order.Field.Basic
import Mathlib.Algebra.Order.Field.Power
import Mathlib.Algebra.Order.Group.Abs
import Mathlib.Tactic.FieldSimp

/-!
# Rounding to a double
-/

set_option autoImplicit false

namespace Jinete

theorem roundHalfEven_int (n : ℤ) : roundHalfEven (n : ℚ) = n := by
  unfold roundHalfEven; rw [Int.floor_intCast]; norm_num

theorem roundHalfEven_mono {a b : ℚ} (h : a ≤ b) : roundHalfEven a ≤ roundHalfEven b := by
  have hf := Int.floor_le_floor h
  rcases hf.lt_or_eq with hlt | heq
  · have h1 : roundHalfEven a ≤ ⌊a⌋ + 1 := by unfold roundHalfEven; split_ifs <;> omega
    have h2 : ⌊b⌋ ≤ roundHalfEven b := by unfold roundHalfEven; split_ifs <;> omega
    omega
  · unfold roundHalfEven
    rw [heq]
    split_ifs <;> first | omega | (exfalso; linarith)

private theorem two_pos (z : ℤ) : (0 : ℚ) < 2 ^ z := zpow_pos (by norm_num) z

private theorem log_le {q : ℚ} (h : 0 < q) : (2 : ℚ) ^ Int.log 2 q ≤ q := by
  have := Int.zpow_log_le_self (b := 2) (by norm_num) h
  exact_mod_cast this

private theorem lt_log (q : ℚ) : q < (2 : ℚ) ^ (Int.log 2 q + 1) := by
  have := Int.lt_zpow_succ_log_self (b := 2) (by norm_num) q
  exact_mod_cast this

private theorem zsplit (e k : ℤ) : (2 : ℚ) ^ e / 2 ^ (e - k) = 2 ^ k := by
  rw [← zpow_sub₀ (by norm_num)]; congr 1; ring

@[simp] theorem roundPositive_zero : roundPositive 0 = 0 := by
  unfold roundPositive
  have : roundHalfEven ((0 : ℚ) / 2 ^ (Int.log 2 (0 : ℚ) - 52)) = 0 := by
    rw [zero_div]; exact_mod_cast roundHalfEven_int 0
  rw [this]; simp

/-- The rounded number lies between the powers of two around the number. -/
theorem roundPositive_between {q : ℚ} (h : 0 < q) :
    (2 : ℚ) ^ Int.log 2 q ≤ roundPositive q ∧ roundPositive q ≤ 2 ^ (Int.log 2 q + 1) := by
  unfold roundPositive
  have hp := two_pos (Int.log 2 q - 52)
  have e52 : (2 : ℚ) ^ (52 : ℤ) = ((2 ^ 52 : ℤ) : ℚ) := by norm_num
  have e53 : (2 : ℚ) ^ (53 : ℤ) = ((2 ^ 53 : ℤ) : ℚ) := by norm_num
  constructor
  · have h1 : ((2 ^ 52 : ℤ) : ℚ) ≤ q / 2 ^ (Int.log 2 q - 52) := by
      rw [← e52, ← zsplit (Int.log 2 q) 52]; exact div_le_div_of_nonneg_right (log_le h) hp.le
    have h2 := roundHalfEven_mono h1
    rw [roundHalfEven_int] at h2
    have h3 : ((2 ^ 52 : ℤ) : ℚ) ≤ (roundHalfEven (q / 2 ^ (Int.log 2 q - 52)) : ℚ) := by exact_mod_cast h2
    have h4 := mul_le_mul_of_nonneg_right h3 hp.le
    rw [← e52, ← zpow_add₀ (by norm_num)] at h4
    simpa using h4
  · have h1 : q / 2 ^ (Int.log 2 q - 52) ≤ ((2 ^ 53 : ℤ) : ℚ) := by
      have := zsplit (Int.log 2 q + 1) 53
      rw [show Int.log 2 q + 1 - 53 = Int.log 2 q - 52 by ring] at this
      rw [← e53, ← this]; exact div_le_div_of_nonneg_right (lt_log q).le hp.le
    have h2 := roundHalfEven_mono h1
    rw [roundHalfEven_int] at h2
    have h3 : (roundHalfEven (q / 2 ^ (Int.log 2 q - 52)) : ℚ) ≤ ((2 ^ 53 : ℤ) : ℚ) := by exact_mod_cast h2
    have h4 := mul_le_mul_of_nonneg_right h3 hp.le
    rw [← e53, ← zpow_add₀ (by norm_num)] at h4
    rw [show (53 : ℤ) + (Int.log 2 q - 52) = Int.log 2 q + 1 by ring] at h4
    exact h4

theorem roundPositive_nonneg {q : ℚ} (h : 0 ≤ q) : 0 ≤ roundPositive q := by
  rcases h.lt_or_eq with h | rfl
  · exact le_trans (two_pos _).le (roundPositive_between h).1
  · simp

theorem roundPositive_mono {a b : ℚ} (ha : 0 ≤ a) (h : a ≤ b) : roundPositive a ≤ roundPositive b := by
  rcases ha.lt_or_eq with ha | rfl
  · have hl := Int.log_mono_right (b := 2) ha h
    rcases hl.lt_or_eq with hlt | heq
    · refine le_trans (roundPositive_between ha).2 (le_trans ?_ (roundPositive_between (lt_of_lt_of_le ha h)).1)
      exact zpow_le_zpow_right₀ (by norm_num) (by omega)
    · unfold roundPositive
      rw [heq]
      refine mul_le_mul_of_nonneg_right ?_ (two_pos _).le
      exact_mod_cast roundHalfEven_mono (div_le_div_of_nonneg_right h (two_pos _).le)
  · simpa using roundPositive_nonneg h

theorem roundPositive_near (q : ℚ) : |roundPositive q - q| ≤ 2 ^ (Int.log 2 q - 53) := by
  have hp := two_pos (Int.log 2 q - 52)
  have h := roundHalfEven_near (q / 2 ^ (Int.log 2 q - 52))
  have e : roundPositive q - q =
      (roundHalfEven (q / 2 ^ (Int.log 2 q - 52)) - q / 2 ^ (Int.log 2 q - 52)) * 2 ^ (Int.log 2 q - 52) := by
    unfold roundPositive; field_simp
  rw [e, abs_mul, abs_of_pos hp]
  have h2 := mul_le_mul_of_nonneg_right h hp.le
  have e2 : (1 / 2 : ℚ) * 2 ^ (Int.log 2 q - 52) = 2 ^ (Int.log 2 q - 53) := by
    rw [show Int.log 2 q - 52 = (Int.log 2 q - 53) + 1 by ring, zpow_add₀ (by norm_num)]; ring
  rwa [e2] at h2

/-- A number with at most 53 binary digits is kept. -/
theorem roundPositive_exact {m : ℕ} (hm : m < 2 ^ 53) (k : ℤ) : roundPositive (m * 2 ^ k) = m * 2 ^ k := by
  rcases Nat.eq_zero_or_pos m with rfl | h0
  · simp
  · have hx : (0 : ℚ) < m * 2 ^ k := mul_pos (by exact_mod_cast h0) (two_pos k)
    have hlog : Int.log 2 ((m : ℚ) * 2 ^ k) < 53 + k := by
      rw [← Int.lt_zpow_iff_log_lt (by norm_num) hx]
      push_cast
      rw [zpow_add₀ (by norm_num)]
      refine mul_lt_mul_of_pos_right ?_ (two_pos k)
      have : (m : ℚ) < (2 ^ 53 : ℕ) := by exact_mod_cast hm
      refine lt_of_lt_of_eq this ?_
      norm_num
    obtain ⟨j, hj⟩ : ∃ j : ℕ, k - (Int.log 2 ((m : ℚ) * 2 ^ k) - 52) = j := ⟨_, (Int.toNat_of_nonneg (by omega)).symm⟩
    unfold roundPositive
    have e : (m : ℚ) * 2 ^ k / 2 ^ (Int.log 2 ((m : ℚ) * 2 ^ k) - 52) = ((m * 2 ^ j : ℤ) : ℚ) := by
      rw [mul_div_assoc, ← zpow_sub₀ (by norm_num), hj]; push_cast; rw [zpow_natCast]
    rw [e, roundHalfEven_int, ← e, div_mul_cancel₀ _ (two_pos _).ne']

theorem roundPositive_idem {q : ℚ} (h : 0 ≤ q) : roundPositive (roundPositive q) = roundPositive q := by
  rcases h.lt_or_eq with h | rfl
  · have hp := two_pos (Int.log 2 q - 52)
    have hb := (roundPositive_between h).2
    have e : roundPositive q = roundHalfEven (q / 2 ^ (Int.log 2 q - 52)) * 2 ^ (Int.log 2 q - 52) := rfl
    have hn := roundHalfEven_nonneg (div_nonneg h.le hp.le)
    obtain ⟨m, hm⟩ : ∃ m : ℕ, roundHalfEven (q / 2 ^ (Int.log 2 q - 52)) = m := ⟨_, (Int.toNat_of_nonneg hn).symm⟩
    rw [hm] at e
    push_cast at e
    have hle : m ≤ 2 ^ 53 := by
      rw [e, show Int.log 2 q + 1 = 53 + (Int.log 2 q - 52) by ring, zpow_add₀ (by norm_num)] at hb
      have := le_of_mul_le_mul_right hb hp
      have e53 : (2 : ℚ) ^ (53 : ℤ) = ((2 ^ 53 : ℕ) : ℚ) := by norm_num
      rw [e53] at this
      exact_mod_cast this
    rcases hle.lt_or_eq with hlt | heq
    · rw [e]; exact roundPositive_exact hlt _
    · have e2 : roundPositive q = ((1 : ℕ) : ℚ) * 2 ^ (53 + (Int.log 2 q - 52)) := by
        rw [e, heq, zpow_add₀ (by norm_num)]; norm_num
      rw [e2]; exact roundPositive_exact (by norm_num) _
  · simp

/-! ## Signs -/

@[simp] theorem roundDouble_zero : roundDouble 0 = 0 := by simp [roundDouble]

theorem roundDouble_of_nonneg {q : ℚ} (h : 0 ≤ q) : roundDouble q = roundPositive q := by
  unfold roundDouble; rw [if_neg (not_lt.2 h)]

theorem roundDouble_neg (q : ℚ) : roundDouble (-q) = -roundDouble q := by
  unfold roundDouble
  rcases lt_trichotomy q 0 with h | rfl | h
  · rw [if_neg (by linarith), if_pos h, neg_neg]
  · simp
  · rw [if_pos (by linarith), if_neg (by linarith), neg_neg]

theorem roundDouble_nonneg {q : ℚ} (h : 0 ≤ q) : 0 ≤ roundDouble q := by
  rw [roundDouble_of_nonneg h]; exact roundPositive_nonneg h

theorem roundDouble_mono {a b : ℚ} (h : a ≤ b) : roundDouble a ≤ roundDouble b := by
  rcases le_total 0 a with ha | ha
  · rw [roundDouble_of_nonneg ha, roundDouble_of_nonneg (ha.trans h)]; exact roundPositive_mono ha h
  · rcases le_total 0 b with hb | hb
    · have := roundDouble_nonneg (q := -a) (by linarith)
      rw [roundDouble_neg] at this
      linarith [roundDouble_nonneg hb]
    · have := roundPositive_mono (a := -b) (b := -a) (by linarith) (by linarith)
      rw [← roundDouble_of_nonneg (by linarith), ← roundDouble_of_nonneg (by linarith), roundDouble_neg, roundDouble_neg] at this
      linarith

theorem roundDouble_idem (q : ℚ) : roundDouble (roundDouble q) = roundDouble q := by
  have pos : ∀ {q : ℚ}, 0 ≤ q → roundDouble (roundDouble q) = roundDouble q := by
    intro q h
    rw [roundDouble_of_nonneg (roundDouble_nonneg h), roundDouble_of_nonneg h]; exact roundPositive_idem h
  rcases le_total 0 q with h | h
  · exact pos h
  · have := pos (q := -q) (by linarith)
    simp only [roundDouble_neg, neg_inj] at this
    exact this

/-- A number with at most 53 binary digits is kept. -/
theorem roundDouble_exact {m : ℤ} (hm : |m| < 2 ^ 53) (k : ℤ) : roundDouble (m * 2 ^ k) = m * 2 ^ k := by
  have pos : ∀ {m : ℤ}, |m| < 2 ^ 53 → 0 ≤ m → roundDouble (m * 2 ^ k) = m * 2 ^ k := by
    intro m hm h
    obtain ⟨n, rfl⟩ := Int.eq_ofNat_of_zero_le h
    rw [abs_of_nonneg h] at hm
    rw [roundDouble_of_nonneg (mul_nonneg (by exact_mod_cast h) (two_pos k).le)]
    exact_mod_cast roundPositive_exact (by exact_mod_cast hm) k
  rcases le_total 0 m with h | h
  · exact pos hm h
  · have := pos (m := -m) (by rwa [abs_neg]) (by omega)
    push_cast at this
    rw [neg_mul, roundDouble_neg, neg_inj] at this
    exact this

/-- The relative error is at most `2⁻⁵³`. -/
theorem roundDouble_rel (q : ℚ) : |roundDouble q - q| ≤ |q| / 2 ^ 53 := by
  have pos : ∀ {q : ℚ}, 0 ≤ q → |roundDouble q - q| ≤ |q| / 2 ^ 53 := by
    intro q h
    rw [roundDouble_of_nonneg h]
    rcases h.lt_or_eq with h | rfl
    · refine le_trans (roundPositive_near q) ?_
      rw [abs_of_pos h, zpow_sub₀ (by norm_num)]
      have e53 : (2 : ℚ) ^ (53 : ℤ) = 2 ^ 53 := by norm_num
      rw [e53]
      exact div_le_div_of_nonneg_right (log_le h) (by norm_num)
    · simp
  rcases le_total 0 q with h | h
  · exact pos h
  · have := pos (q := -q) (by linarith)
    rw [roundDouble_neg, abs_neg, show -roundDouble q - -q = -(roundDouble q - q) by ring, abs_neg] at this
    exact this

theorem roundHalfEven_nearest (y : ℚ) (n : ℤ) : |(roundHalfEven y : ℚ) - y| ≤ |n - y| := by
  by_cases h : n = roundHalfEven y
  · rw [h]
  · have h1 : (1 : ℚ) ≤ |(n : ℚ) - roundHalfEven y| := by
      have : 1 ≤ |n - roundHalfEven y| := Int.one_le_abs (sub_ne_zero.2 h)
      exact_mod_cast this
    have h2 := roundHalfEven_near y
    have h3 := abs_sub_le (n : ℚ) y (roundHalfEven y)
    rw [abs_sub_comm y] at h3
    linarith

theorem roundPositive_nearest {q : ℚ} (h : 0 < q) {m : ℤ} (hm : |m| < 2 ^ 53) (k : ℤ) :
    |roundPositive q - q| ≤ |m * 2 ^ k - q| := by
  have hp := two_pos (Int.log 2 q - 52)
  have mult : ∀ n : ℤ, |roundPositive q - q| ≤ |n * 2 ^ (Int.log 2 q - 52) - q| := by
    intro n
    have e : ∀ a : ℚ, a * 2 ^ (Int.log 2 q - 52) - q = (a - q / 2 ^ (Int.log 2 q - 52)) * 2 ^ (Int.log 2 q - 52) := by
      intro a; field_simp
    unfold roundPositive
    rw [e, e, abs_mul, abs_mul]
    exact mul_le_mul_of_nonneg_right (roundHalfEven_nearest _ n) (abs_nonneg _)
  rcases le_or_gt (Int.log 2 q - 52) k with hk | hk
  · obtain ⟨j, hj⟩ : ∃ j : ℕ, k - (Int.log 2 q - 52) = j := ⟨_, (Int.toNat_of_nonneg (by omega)).symm⟩
    have := mult (m * 2 ^ j)
    push_cast at this
    rw [mul_assoc, ← zpow_natCast (2 : ℚ) j, ← zpow_add₀ (by norm_num), ← hj, sub_add_cancel] at this
    exact this
  · have h1 := mult (2 ^ 52)
    have e52 : (((2 ^ 52 : ℤ)) : ℚ) * 2 ^ (Int.log 2 q - 52) = 2 ^ Int.log 2 q := by
      have : (((2 ^ 52 : ℤ)) : ℚ) = 2 ^ (52 : ℤ) := by norm_num
      rw [this, ← zpow_add₀ (by norm_num)]; congr 1; ring
    rw [e52] at h1
    have hle := log_le h
    have hx : (m : ℚ) * 2 ^ k ≤ 2 ^ Int.log 2 q := by
      have a1 : (m : ℚ) ≤ 2 ^ (53 : ℤ) := by
        have : m ≤ 2 ^ 53 := le_trans (le_abs_self m) hm.le
        have : (m : ℚ) ≤ ((2 ^ 53 : ℤ) : ℚ) := by exact_mod_cast this
        refine le_trans this (le_of_eq ?_); norm_num
      have a2 : (2 : ℚ) ^ (53 + k) ≤ 2 ^ Int.log 2 q := zpow_le_zpow_right₀ (by norm_num) (by omega)
      have a3 := mul_le_mul_of_nonneg_right a1 (two_pos k).le
      rw [← zpow_add₀ (by norm_num)] at a3
      linarith
    rw [abs_of_nonpos (by linarith : (2 : ℚ) ^ Int.log 2 q - q ≤ 0)] at h1
    rw [abs_of_nonpos (by linarith : (m : ℚ) * 2 ^ k - q ≤ 0)]
    linarith

/-- No double is closer than the rounded number: no `m * 2 ^ k` with `|m| < 2 ^ 53` lies nearer to `q`. -/
theorem roundDouble_nearest (q : ℚ) {m : ℤ} (hm : |m| < 2 ^ 53) (k : ℤ) : |roundDouble q - q| ≤ |m * 2 ^ k - q| := by
  rcases lt_trichotomy q 0 with h | rfl | h
  · have := roundPositive_nearest (q := -q) (by linarith) (m := -m) (by rwa [abs_neg]) k
    rw [← roundDouble_of_nonneg (by linarith), roundDouble_neg] at this
    push_cast at this
    rw [show -roundDouble q - -q = -(roundDouble q - q) by ring, abs_neg,
      show -(m : ℚ) * 2 ^ k - -q = -(m * 2 ^ k - q) by ring, abs_neg] at this
    exact this
  · rw [roundDouble_zero, sub_self, abs_zero]; exact abs_nonneg _
  · rw [roundDouble_of_nonneg h.le]; exact roundPositive_nearest h hm k

/-- The rounded number is a double. -/
theorem roundDouble_repr (q : ℚ) : ∃ (m : ℤ) (k : ℤ), |m| < 2 ^ 53 ∧ roundDouble q = m * 2 ^ k := by
  have pos : ∀ {q : ℚ}, 0 < q → ∃ (m : ℤ) (k : ℤ), |m| < 2 ^ 53 ∧ roundDouble q = m * 2 ^ k := by
    intro q h
    have hp := two_pos (Int.log 2 q - 52)
    have hb := (roundPositive_between h).2
    have e : roundPositive q = roundHalfEven (q / 2 ^ (Int.log 2 q - 52)) * 2 ^ (Int.log 2 q - 52) := rfl
    have hn := roundHalfEven_nonneg (div_nonneg h.le hp.le)
    rw [roundDouble_of_nonneg h.le]
    rcases lt_or_ge (roundHalfEven (q / 2 ^ (Int.log 2 q - 52))) (2 ^ 53) with hlt | hge
    · exact ⟨_, _, by rwa [abs_of_nonneg hn], e⟩
    · refine ⟨1, Int.log 2 q + 1, by norm_num, ?_⟩
      have h1 : ((2 ^ 53 : ℤ) : ℚ) ≤ (roundHalfEven (q / 2 ^ (Int.log 2 q - 52)) : ℚ) := by exact_mod_cast hge
      have h2 := mul_le_mul_of_nonneg_right h1 hp.le
      have e53 : ((2 ^ 53 : ℤ) : ℚ) = 2 ^ (53 : ℤ) := by norm_num
      rw [e53, ← zpow_add₀ (by norm_num), show (53 : ℤ) + (Int.log 2 q - 52) = Int.log 2 q + 1 by ring, ← e] at h2
      push_cast
      rw [one_mul]
      exact le_antisymm hb h2
  rcases lt_trichotomy q 0 with h | rfl | h
  · obtain ⟨m, k, h1, h2⟩ := pos (q := -q) (by linarith)
    refine ⟨-m, k, by rwa [abs_neg], ?_⟩
    rw [roundDouble_neg] at h2
    push_cast
    linarith
  · exact ⟨0, 0, by norm_num, by simp⟩
  · exact pos h

end Jinete
