import Verif.Model.Columnar
import Verif.Spec.Columns
import Verif.Props.File
import Mathlib.Data.Nat.Digits.Lemmas
import Mathlib.Tactic.Linarith
import Mathlib.Tactic.FieldSimp
import Mathlib.Tactic.Ring

/-!
# Formatted numbers denote the rounded numbers
-/

set_option autoImplicit false

namespace Jinete

theorem roundHalfEven_near (q : ℚ) : |(roundHalfEven q : ℚ) - q| ≤ 1 / 2 := by
  have h0 := Int.floor_le q
  have h1 := Int.lt_floor_add_one q
  unfold roundHalfEven
  split
  · rw [abs_le]; constructor <;> linarith
  · split
    · push_cast; rw [abs_le]; constructor <;> linarith
    · split
      · rw [abs_le]; constructor <;> linarith
      · push_cast; rw [abs_le]; constructor <;> linarith

theorem roundHalfEven_tie {q : ℚ} (h : |(roundHalfEven q : ℚ) - q| = 1 / 2) : roundHalfEven q % 2 = 0 := by
  have h0 := Int.floor_le q
  have h1 := Int.lt_floor_add_one q
  unfold roundHalfEven at h ⊢
  split at h
  · next h2 =>
    rw [abs_eq (by norm_num)] at h
    rcases h with h | h <;> linarith
  · next h2 =>
    rw [if_neg h2]
    split at h
    · next h3 =>
      push_cast at h
      rw [abs_eq (by norm_num)] at h
      rcases h with h | h <;> linarith
    · next h3 =>
      rw [if_neg h3]
      split
      · assumption
      · omega

theorem roundHalfEven_nonneg {q : ℚ} (h : 0 ≤ q) : 0 ≤ roundHalfEven q := by
  have := Int.floor_nonneg.2 h
  unfold roundHalfEven
  split
  · exact this
  · split
    · omega
    · split <;> omega

/-- The digits of a natural number, most significant first. -/
def digitsOf (n : Nat) : List Nat := if n = 0 then [0] else (Nat.digits 10 n).reverse

theorem decimal_digits (n : Nat) : decimal n = (digitsOf n).map fun d => Char.ofNat (48 + d) := by
  unfold decimal digitsOf
  split
  · rfl
  · rfl

theorem digitsOf_lt {n d : Nat} (h : d ∈ digitsOf n) : d < 10 := by
  unfold digitsOf at h
  split at h
  · simp only [List.mem_singleton] at h; omega
  · exact Nat.digits_lt_base (by norm_num) (List.mem_reverse.1 h)

theorem numberOf_digitsOf (n : Nat) : numberOf (digitsOf n) = n := by
  unfold digitsOf
  split
  · next h => subst h; rfl
  · rw [numberOf, List.reverse_reverse, Nat.ofDigits_digits]

theorem digitsOf_length {n k : Nat} (hk : 0 < k) (h : n < 10 ^ k) : (digitsOf n).length ≤ k := by
  unfold digitsOf
  split
  · exact hk
  · rw [List.length_reverse]
    exact (Nat.digits_length_le_iff (by norm_num) n).2 h

theorem numberOf_zeros (k : Nat) (ds : List Nat) : numberOf (List.replicate k 0 ++ ds) = numberOf ds := by
  unfold numberOf
  rw [List.reverse_append, List.reverse_replicate, Nat.ofDigits_append_replicate_zero]

theorem padZeros_digits (w : Nat) (ds : List Nat) :
    padLeft '0' w (ds.map fun d => Char.ofNat (48 + d)) = (List.replicate (w - ds.length) 0 ++ ds).map fun d => Char.ofNat (48 + d) := by
  simp only [padLeft, List.length_map, List.map_append, List.map_replicate]

theorem digitsOf_ne_nil (n : Nat) : digitsOf n ≠ [] := by
  intro h
  have := decimal_digits n
  rw [h] at this
  exact decimal_ne_nil n this

/-- The digits shown, with any number of zeros before, denote the rounded number. -/
theorem fixedDigits_mantissa (d k : Nat) {q : ℚ} (hq : 0 ≤ q) :
    MantissaText (List.replicate k '0' ++ fixedDigits d q) ((roundHalfEven (q * 10 ^ d) : ℚ) / 10 ^ d) := by
  obtain ⟨n, hn⟩ : ∃ n : Nat, roundHalfEven (q * 10 ^ d) = n :=
    ⟨(roundHalfEven (q * 10 ^ d)).toNat, (Int.toNat_of_nonneg (roundHalfEven_nonneg (by positivity))).symm⟩
  unfold fixedDigits
  simp only [hn, Int.toNat_natCast]
  have h1 : DigitText (List.replicate k '0' ++ decimal (n / 10 ^ d)) (List.replicate k 0 ++ digitsOf (n / 10 ^ d)) := by
    have := digitText_map (List.replicate k 0 ++ digitsOf (n / 10 ^ d)) (by simp [digitsOf_ne_nil]) (by
      intro x hx
      rcases List.mem_append.1 hx with hx | hx
      · rw [List.eq_of_mem_replicate hx]; norm_num
      · exact digitsOf_lt hx)
    rw [List.map_append, List.map_replicate, ← decimal_digits] at this
    exact this
  have e1 : numberOf (List.replicate k 0 ++ digitsOf (n / 10 ^ d)) = n / 10 ^ d := by rw [numberOf_zeros, numberOf_digitsOf]
  rw [← List.append_assoc]
  split
  · next hd =>
    subst hd
    have := MantissaText.int h1
    rw [e1] at this
    simpa using this
  · next hd =>
    have h2 : DigitText (padLeft '0' d (decimal (n % 10 ^ d))) (List.replicate (d - (digitsOf (n % 10 ^ d)).length) 0 ++ digitsOf (n % 10 ^ d)) := by
      rw [decimal_digits, padZeros_digits]
      refine digitText_map _ (by simp [digitsOf_ne_nil]) ?_
      intro x hx
      rcases List.mem_append.1 hx with hx | hx
      · rw [List.eq_of_mem_replicate hx]; norm_num
      · exact digitsOf_lt hx
    have hl : (List.replicate (d - (digitsOf (n % 10 ^ d)).length) 0 ++ digitsOf (n % 10 ^ d)).length = d := by
      have := digitsOf_length (Nat.pos_of_ne_zero hd) (Nat.mod_lt n (by positivity : 0 < 10 ^ d))
      simp only [List.length_append, List.length_replicate]
      omega
    have := MantissaText.frac h1 h2
    rw [e1, hl, numberOf_zeros, numberOf_digitsOf] at this
    have e : ((n / 10 ^ d : Nat) : ℚ) + ((n % 10 ^ d : Nat) : ℚ) / 10 ^ d = ((n : ℤ) : ℚ) / 10 ^ d := by
      have h3 : (10 : ℚ) ^ d ≠ 0 := by positivity
      have h4 : ((10 ^ d * (n / 10 ^ d) + n % 10 ^ d : Nat) : ℚ) = (n : ℚ) := by rw [Nat.div_add_mod]
      push_cast at h4
      rw [eq_div_iff h3, add_mul, div_mul_cancel₀ _ h3]
      push_cast
      linarith
    rw [← e]
    exact this

theorem abs_scale {p : ℚ} (hp : 0 < p) (x : ℚ) : |x| * p = |x * p| := by rw [abs_mul, abs_of_pos hp]

/-- What a number is rounded to. -/
def shownAs (d : Nat) (q : ℚ) : ℚ := (if q < 0 then -1 else 1) * ((roundHalfEven (|q| * 10 ^ d) : ℚ) / 10 ^ d)

theorem shownAs_rounded (d : Nat) (q : ℚ) : RoundedTo d q (shownAs d q) := by
  have hp : (0 : ℚ) < 10 ^ d := by positivity
  have key : |shownAs d q - q| * 10 ^ d = |(roundHalfEven (|q| * 10 ^ d) : ℚ) - |q| * 10 ^ d| := by
    have h1 : |shownAs d q - q| = abs ((roundHalfEven (|q| * 10 ^ d) : ℚ) / 10 ^ d - |q|) := by
      unfold shownAs
      by_cases hq : q < 0
      · rw [if_pos hq, abs_of_neg hq, ← abs_neg]
        congr 1
        ring
      · rw [if_neg hq, abs_of_nonneg (not_lt.1 hq), one_mul]
    rw [h1, abs_scale hp, sub_mul, div_mul_cancel₀ _ hp.ne']
  have hv : shownAs d q * 10 ^ d = (if q < 0 then -1 else 1) * (roundHalfEven (|q| * 10 ^ d) : ℚ) := by
    unfold shownAs
    rw [mul_assoc, div_mul_cancel₀ _ hp.ne']
  refine ⟨?_, ?_, ?_⟩
  · rw [hv]
    split
    · exact ⟨-roundHalfEven (|q| * 10 ^ d), by push_cast; ring⟩
    · exact ⟨roundHalfEven (|q| * 10 ^ d), by ring⟩
  · have := roundHalfEven_near (|q| * 10 ^ d)
    rw [← key] at this
    linarith
  · intro h
    have h2 : |(roundHalfEven (|q| * 10 ^ d) : ℚ) - |q| * 10 ^ d| = 1 / 2 := by rw [← key]; linarith
    have h3 := roundHalfEven_tie h2
    obtain ⟨n, hn⟩ : ∃ n : ℤ, roundHalfEven (|q| * 10 ^ d) = 2 * n := ⟨roundHalfEven (|q| * 10 ^ d) / 2, by omega⟩
    rw [hv, hn]
    split
    · exact ⟨-n, by push_cast; ring⟩
    · exact ⟨n, by push_cast; ring⟩

theorem shown_numberText (d k : Nat) (q : ℚ) : NumberText (signText q ++ (List.replicate k '0' ++ fixedDigits d |q|)) (shownAs d q) := by
  have hm := fixedDigits_mantissa d k (abs_nonneg q)
  unfold shownAs
  by_cases hq : q < 0
  · refine ⟨['-'], -1, _, _, [], 0, ?_, .minus, hm, .none, ?_⟩
    · simp [signText, hq]
    · simp [hq]
  · refine ⟨[], 1, _, _, [], 0, ?_, .none, hm, .none, ?_⟩
    · simp [signText, hq]
    · simp [hq]

theorem formatFixed_shows (w d : Nat) (q : ℚ) : ShowsNumber d q (formatFixed w d q) :=
  ⟨_, _, shownAs d q, rfl, by simpa using shown_numberText d 0 q, shownAs_rounded d q⟩

theorem formatZeros_shows (w d : Nat) (q : ℚ) : NumberText (formatZeros w d q) (shownAs d q) := shown_numberText d _ q

/-- Rounding is determined by its rule. -/
theorem RoundedTo.unique {d : Nat} {q v v' : ℚ} (h : RoundedTo d q v) (h' : RoundedTo d q v') : v = v' := by
  have hp : (0 : ℚ) < 10 ^ d := by positivity
  obtain ⟨n, hn⟩ := h.digits
  obtain ⟨m, hm⟩ := h'.digits
  have e1 := abs_le.1 (show |v * 10 ^ d - q * 10 ^ d| ≤ 1 / 2 by
    rw [← sub_mul, abs_mul, abs_of_pos hp]; linarith [h.nearest])
  have e2 := abs_le.1 (show |v' * 10 ^ d - q * 10 ^ d| ≤ 1 / 2 by
    rw [← sub_mul, abs_mul, abs_of_pos hp]; linarith [h'.nearest])
  rw [hn] at e1
  rw [hm] at e2
  have hnm : n = m := by
    by_contra hne
    have tie : |(n : ℚ) - q * 10 ^ d| = 1 / 2 ∧ |(m : ℚ) - q * 10 ^ d| = 1 / 2 ∧ (n = m + 1 ∨ m = n + 1) := by
      rcases lt_or_gt_of_ne hne with hlt | hlt
      · have h1 : (n : ℚ) + 1 ≤ m := by exact_mod_cast hlt
        refine ⟨(abs_eq (by norm_num)).2 (.inr (by linarith [e1.1, e2.2])), (abs_eq (by norm_num)).2 (.inl (by linarith [e1.1, e2.2])), .inr ?_⟩
        have h2 : (m : ℚ) ≤ n + 1 := by linarith [e1.1, e2.2]
        have h3 : m ≤ n + 1 := by exact_mod_cast h2
        omega
      · have h1 : (m : ℚ) + 1 ≤ n := by exact_mod_cast hlt
        refine ⟨(abs_eq (by norm_num)).2 (.inl (by linarith [e1.2, e2.1])), (abs_eq (by norm_num)).2 (.inr (by linarith [e1.2, e2.1])), .inl ?_⟩
        have h2 : (n : ℚ) ≤ m + 1 := by linarith [e1.2, e2.1]
        have h3 : n ≤ m + 1 := by exact_mod_cast h2
        omega
    obtain ⟨t1, t2, t3⟩ := tie
    obtain ⟨a, ha⟩ := h.ties (by
      have : |v - q| * 10 ^ d = 1 / 2 := by rw [abs_scale hp, sub_mul, hn]; exact t1
      linarith)
    obtain ⟨b, hb⟩ := h'.ties (by
      have : |v' - q| * 10 ^ d = 1 / 2 := by rw [abs_scale hp, sub_mul, hm]; exact t2
      linarith)
    rw [hn] at ha
    rw [hm] at hb
    have ha' : n = 2 * a := by exact_mod_cast ha
    have hb' : m = 2 * b := by exact_mod_cast hb
    omega
  have : v * 10 ^ d = v' * 10 ^ d := by rw [hn, hm, hnm]
  exact mul_right_cancel₀ hp.ne' this

/-- Rounding keeps the order. -/
theorem RoundedTo.mono {d : Nat} {q q' v v' : ℚ} (h : RoundedTo d q v) (h' : RoundedTo d q' v') (hq : q ≤ q') : v ≤ v' := by
  by_contra hlt
  have hp : (0 : ℚ) < 10 ^ d := by positivity
  have heq : q = q' ∨ q < q' := eq_or_lt_of_le hq
  rcases heq with rfl | hq
  · exact hlt (le_of_eq (h.unique h'))
  obtain ⟨n, hn⟩ := h.digits
  obtain ⟨m, hm⟩ := h'.digits
  have e1 := (abs_le.1 (show |v * 10 ^ d - q * 10 ^ d| ≤ 1 / 2 by rw [← sub_mul, abs_mul, abs_of_pos hp]; linarith [h.nearest])).2
  have e2 := (abs_le.1 (show |v' * 10 ^ d - q' * 10 ^ d| ≤ 1 / 2 by rw [← sub_mul, abs_mul, abs_of_pos hp]; linarith [h'.nearest])).1
  have h1 : v' * 10 ^ d < v * 10 ^ d := mul_lt_mul_of_pos_right (not_le.1 hlt) hp
  have h2 : q * 10 ^ d < q' * 10 ^ d := mul_lt_mul_of_pos_right hq hp
  rw [hn, hm] at h1
  have h3 : m + 1 ≤ n := by exact_mod_cast h1
  have h4 : (m : ℚ) + 1 ≤ n := by exact_mod_cast h3
  rw [hn] at e1
  rw [hm] at e2
  linarith

end Jinete
