import Verif.Model.Loader
import Mathlib.Data.Nat.Digits.Defs

/-!
# Specification: numbers written in a file

Which numbers a text denotes, described by how it may be written, not by how it is read.
-/

set_option autoImplicit false

namespace Jinete

/-- The character of a digit. -/
def digitChar (d : Nat) : Char := ['0', '1', '2', '3', '4', '5', '6', '7', '8', '9'].getD d '0'

/-- Digits in a row, possibly with single underscores in between, most significant first. -/
inductive DigitText : Text → List Nat → Prop
  | one (d : Nat) : d < 10 → DigitText [digitChar d] [d]
  | next (d : Nat) {t ds} : d < 10 → DigitText t ds → DigitText (digitChar d :: t) (d :: ds)
  | sep (d : Nat) {t ds} : d < 10 → DigitText t ds → DigitText (digitChar d :: '_' :: t) (d :: ds)

/-- The natural number with these digits, most significant first. -/
def numberOf (ds : List Nat) : Nat := Nat.ofDigits 10 ds.reverse

/-- An optional sign. -/
inductive SignText : Text → Int → Prop
  | none : SignText [] 1
  | plus : SignText ['+'] 1
  | minus : SignText ['-'] (-1)

/-- A number with an optional fractional part: `12`, `12.`, `12.5`, `.5`. -/
inductive MantissaText : Text → ℚ → Prop
  | int {t ds} : DigitText t ds → MantissaText t (numberOf ds)
  | point {t ds} : DigitText t ds → MantissaText (t ++ ['.']) (numberOf ds)
  | frac {t ds u es} : DigitText t ds → DigitText u es → MantissaText (t ++ '.' :: u) (numberOf ds + numberOf es / 10 ^ es.length)
  | small {u es} : DigitText u es → MantissaText ('.' :: u) (numberOf es / 10 ^ es.length)

/-- An optional power of ten. -/
inductive ExponentText : Text → Int → Prop
  | none : ExponentText [] 0
  | power {c s g t ds} : c = 'e' ∨ c = 'E' → SignText s g → DigitText t ds → ExponentText (c :: (s ++ t)) (g * numberOf ds)

/-- The text denotes the number. -/
def NumberText (t : Text) (q : ℚ) : Prop :=
  ∃ s g m a x e, t = s ++ m ++ x ∧ SignText s g ∧ MantissaText m a ∧ ExponentText x e ∧ q = g * a * (10 : ℚ) ^ e

/-- White space: the characters that separate words. -/
def WhiteSpace (c : Char) : Prop :=
  c.toNat ∈ [0x09, 0x0A, 0x0B, 0x0C, 0x0D, 0x1C, 0x1D, 0x1E, 0x1F, 0x20, 0x85, 0xA0, 0x1680, 0x2000, 0x2001, 0x2002, 0x2003, 0x2004, 0x2005,
    0x2006, 0x2007, 0x2008, 0x2009, 0x200A, 0x2028, 0x2029, 0x202F, 0x205F, 0x3000]

/-- The words of a line: pieces without white space, with white space in between and possibly around. -/
inductive WordsOf : Text → List Text → Prop
  | nil {t} : (∀ c ∈ t, WhiteSpace c) → WordsOf t []
  | cons {b w t ws} : (∀ c ∈ b, WhiteSpace c) → w ≠ [] → (∀ c ∈ w, ¬ WhiteSpace c) → (t = [] ∨ ∃ c u, t = c :: u ∧ WhiteSpace c) → WordsOf t ws →
      WordsOf (b ++ w ++ t) (w :: ws)

/-- Not the end of a line. -/
def NoBreak (t : Text) : Prop := '\n' ∉ t ∧ '\r' ∉ t

/-- The lines of a text: each ends with `\n`, `\r\n` or `\r`, except that the last one may end with the text. -/
inductive LinesOf : Text → List Text → Prop
  | empty : LinesOf [] []
  | last {l} : l ≠ [] → NoBreak l → LinesOf l [l]
  | line {l nl rest ls} : NoBreak l → (nl = ['\n'] ∨ nl = ['\r', '\n'] ∨ nl = ['\r'] ∧ rest.head? ≠ some '\n') → LinesOf rest ls →
      LinesOf (l ++ nl ++ rest) (l :: ls)

/-- The line consists of these numbers. -/
def LineText (l : Text) (row : List ℚ) : Prop := ∃ ws, WordsOf l ws ∧ List.Forall₂ NumberText ws row

/-- The text consists of these rows of numbers. -/
def FileText (text : Text) (rows : Rows) : Prop := ∃ ls, LinesOf text ls ∧ List.Forall₂ LineText ls rows

end Jinete
