import Verif.Spec.File

/-!
# Specification: numbers in columns
-/

set_option autoImplicit false

namespace Jinete

/-- `v` is `q` rounded to `d` digits after the point: the nearest such number, of two equally near ones the one whose last
digit is even. -/
structure RoundedTo (d : Nat) (q v : ℚ) : Prop where
  digits : ∃ n : ℤ, v * 10 ^ d = n
  nearest : |v - q| * (2 * 10 ^ d) ≤ 1
  ties : |v - q| * (2 * 10 ^ d) = 1 → ∃ n : ℤ, v * 10 ^ d = 2 * n

/-- The text is blanks followed by a number: `q` rounded to `d` digits. -/
def ShowsNumber (d : Nat) (q : ℚ) (t : Text) : Prop :=
  ∃ (n : Nat) (w : Text) (v : ℚ), t = List.replicate n ' ' ++ w ∧ NumberText w v ∧ RoundedTo d q v

/-- The word is `q` rounded to `d` digits. -/
def NumberWord (d : Nat) (q : ℚ) (w : Text) : Prop := ∃ v, NumberText w v ∧ RoundedTo d q v

/-- The word is a number or `inf`. -/
def BoundWord (d : Nat) : Bound → Text → Prop
  | .fin q, w => NumberWord d q w
  | .inf, w => w = ['i', 'n', 'f']

/-- The word is a position: its coordinates, rounded to three digits, separated by commas, in parentheses. -/
def PositionWord (p : Pos) (w : Text) : Prop :=
  ∃ ws, w = ['('] ++ List.intercalate [','] ws ++ [')'] ∧ List.Forall₂ (NumberWord 3) p ws ∧ ∀ x ∈ ws, ',' ∉ x

/-- A word: something, without white space. -/
def IsWord (w : Text) : Prop := w ≠ [] ∧ ∀ c ∈ w, ¬ WhiteSpace c

/-- The text is blanks followed by a number or `inf`. -/
def ShowsBound (d : Nat) (b : Bound) (t : Text) : Prop := ∃ (n : Nat) (w : Text), t = List.replicate n ' ' ++ w ∧ BoundWord d b w

/-- The line is `name: "value"`. -/
def FieldLine (name : String) (value line : Text) : Prop := line = name.toList ++ [':', ' ', '"'] ++ value ++ ['"']

/-- The line is `name: "n"`. -/
def CountLine (name : String) (n : Nat) (line : Text) : Prop := ∃ w, FieldLine name w line ∧ NumberText w n

end Jinete
