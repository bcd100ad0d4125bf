import Mathlib.Data.Nat.Digits.Defs

/-!
# Text

Python strings are lists of characters. `str` of a natural number is its decimal notation.
-/

set_option autoImplicit false

namespace Jinete

/-- A Python `str`. -/
abbrev Text := List Char

/-- `str(n)` (and `f"{n}"`) of a natural number: the Python language's decimal notation, most significant
digit first, used at jinete/loaders/formatters/cordeau_laporte.py:55 and 97,
jinete/loaders/formatters/hashcode.py:38 and 53 and jinete/storers/formatters/hashcode.py:30. -/
def decimal (n : Nat) : Text :=
  if n = 0 then ['0'] else (Nat.digits 10 n).reverse.map fun d => Char.ofNat (48 + d)

end Jinete
