import Verif.Spec.Loader
import Mathlib.Data.Nat.Digits.Lemmas

/-!
# Decimal notation can be read back
-/

set_option autoImplicit false

namespace Jinete

theorem digit_toNat {d : Nat} (hd : d < 10) : (Char.ofNat (48 + d)).toNat - 48 = d := by
  have : ∀ d < 10, (Char.ofNat (48 + d)).toNat - 48 = d := by decide
  exact this d hd

theorem digit_isDigit {d : Nat} (hd : d < 10) : (Char.ofNat (48 + d)).isDigit = true := by
  have : ∀ d < 10, (Char.ofNat (48 + d)).isDigit = true := by decide
  exact this d hd

theorem readNat_append (t : Text) (c : Char) : readNat (t ++ [c]) = 10 * readNat t + (c.toNat - 48) := by
  simp [readNat, List.foldl_append]

theorem readNat_digits (l : List Nat) (hl : ∀ d ∈ l, d < 10) :
    readNat (l.reverse.map fun d => Char.ofNat (48 + d)) = Nat.ofDigits 10 l := by
  induction l with
  | nil => rfl
  | cons d l ih =>
    rw [List.reverse_cons, List.map_append, List.map_singleton, readNat_append, digit_toNat (hl d (by simp)),
      ih (fun x hx => hl x (by simp [hx])), Nat.ofDigits_cons]
    omega

/-- Decimal notation can be read back. -/
theorem readNat_decimal (n : Nat) : readNat (decimal n) = n := by
  unfold decimal
  split
  · next h => subst h; rfl
  · rw [readNat_digits _ (fun d hd => Nat.digits_lt_base (by norm_num) hd), Nat.ofDigits_digits]

theorem decimal_injective : Function.Injective decimal := fun a b h => by
  rw [← readNat_decimal a, ← readNat_decimal b, h]

/-- Decimal notation consists of digits. -/
theorem decimal_isDigit {n : Nat} {c : Char} (hc : c ∈ decimal n) : c.isDigit = true := by
  unfold decimal at hc
  split at hc
  · simp only [List.mem_singleton] at hc; subst hc; decide
  · obtain ⟨d, hd, rfl⟩ := List.mem_map.1 hc
    exact digit_isDigit (Nat.digits_lt_base (by norm_num) (List.mem_reverse.1 hd))

theorem decimal_ne_nil (n : Nat) : decimal n ≠ [] := by
  unfold decimal
  split
  · simp
  · next h => simpa [Nat.digits_eq_nil_iff_eq_zero] using h

end Jinete
