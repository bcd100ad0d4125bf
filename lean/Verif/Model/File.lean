import Verif.Model.Text
import Verif.Model.Loader

/-!
# From the text of a file to numbers

`FileLoader._data`, jinete/loaders/file.py:54-58:

    with self.file_path.open() as file:
        data = list(list(float(v) for v in line.split()) for line in file.readlines())

The text is the decoded content of the file. Numbers are exact: rounding to a double, overflow, `inf` and `nan` and
digits other than `0` to `9` are not modelled (the model raises `ValueError` for the last three, Python reads them).
-/

set_option autoImplicit false

namespace Jinete

/-- What text mode makes of line ends (universal newlines, the default of `Path.open`): `\r\n` and `\r` become `\n`.
jinete/loaders/file.py:56. -/
def universalNewlines : Text → Text
  | [] => []
  | '\r' :: '\n' :: t => '\n' :: universalNewlines t
  | '\r' :: t => '\n' :: universalNewlines t
  | c :: t => c :: universalNewlines t

/-- `file.readlines()`, jinete/loaders/file.py:57: the pieces up to and including each `\n`; a last piece without `\n`
if it is not empty. -/
def readlines : Text → List Text
  | [] => []
  | c :: t =>
    if c = '\n' then ['\n'] :: readlines t
    else match readlines t with
      | [] => [[c]]
      | l :: ls => (c :: l) :: ls

/-- `str.isspace` of a character: what `str.split()` separates at. -/
def isSpace (c : Char) : Bool :=
  (9 ≤ c.toNat && c.toNat ≤ 13) || (28 ≤ c.toNat && c.toNat ≤ 32) || c.toNat = 0x85 || c.toNat = 0xA0 || c.toNat = 0x1680 ||
    (0x2000 ≤ c.toNat && c.toNat ≤ 0x200A) || c.toNat = 0x2028 || c.toNat = 0x2029 || c.toNat = 0x202F || c.toNat = 0x205F ||
    c.toNat = 0x3000

/-- `line.split()`, jinete/loaders/file.py:57: the maximal pieces without white space; `word` is the piece read so far,
backwards. -/
def splitFrom (word : Text) : Text → List Text
  | [] => if word = [] then [] else [word.reverse]
  | c :: t =>
    if isSpace c then if word = [] then splitFrom [] t else word.reverse :: splitFrom [] t
    else splitFrom (c :: word) t

/-- `line.split()`. -/
def splitWords (line : Text) : List Text := splitFrom [] line

/-- The digits that continue a group of digits, and the rest: single underscores between digits are skipped. -/
def moreDigits : Text → List Nat × Text
  | [] => ([], [])
  | c :: t =>
    if c.isDigit then ((c.toNat - 48) :: (moreDigits t).1, (moreDigits t).2)
    else if c = '_' then
      match t with
      | d :: u => if d.isDigit then ((d.toNat - 48) :: (moreDigits u).1, (moreDigits u).2) else ([], c :: t)
      | [] => ([], c :: t)
    else ([], c :: t)

/-- A group of at least one digit at the beginning of the text, and the rest. -/
def digitGroup : Text → Option (List Nat × Text)
  | [] => none
  | c :: t => if c.isDigit then some ((c.toNat - 48) :: (moreDigits t).1, (moreDigits t).2) else none

/-- An optional sign: is it negative, and the rest. -/
def signOf : Text → Bool × Text
  | '-' :: t => (true, t)
  | '+' :: t => (false, t)
  | t => (false, t)

/-- Digits before and after the point, and the rest. -/
def mantissa (t : Text) : Option (List Nat × List Nat × Text) :=
  match digitGroup t with
  | some (ip, '.' :: r) =>
    match digitGroup r with
    | some (fp, r') => some (ip, fp, r')
    | none => some (ip, [], r)
  | some (ip, r) => some (ip, [], r)
  | none =>
    match t with
    | '.' :: r => (digitGroup r).map fun p => ([], p.1, p.2)
    | _ => none

/-- The exponent: nothing, or `e` or `E`, a sign and digits up to the end of the text. -/
def exponentOf : Text → Option Int
  | [] => some 0
  | c :: t =>
    if c = 'e' ∨ c = 'E' then
      match digitGroup (signOf t).2 with
      | some (ds, []) => some (if (signOf t).1 then -((ds.foldl (fun a d => 10 * a + d) 0 : Nat) : Int) else (ds.foldl (fun a d => 10 * a + d) 0 : Nat))
      | _ => none
    else none

/-- `float(v)` of a word, jinete/loaders/file.py:57; the value is exact. -/
def pyFloat (v : Text) : Option ℚ :=
  match mantissa (signOf v).2 with
  | none => none
  | some (ip, fp, r) =>
    match exponentOf r with
    | none => none
    | some e =>
      let q : ℚ := ((ip ++ fp).foldl (fun a d => 10 * a + d) 0 : Nat) * (10 : ℚ) ^ (e - fp.length)
      some (if (signOf v).1 then -q else q)

/-- `list(float(v) for v in line.split())`. -/
def lineNumbers (line : Text) : Option (List ℚ) := (splitWords line).mapM pyFloat

/-- `FileLoader._data`, jinete/loaders/file.py:54-58, for a file with the given text; a word that is no number raises
`ValueError`. -/
def fileData (text : Text) : Except Err Rows :=
  match (readlines (universalNewlines text)).mapM lineNumbers with
  | some rows => .ok rows
  | none => .error .valueError

/-- A new `FileLoader` for a file with the given text, jinete/loaders/file.py:35-52. -/
def LoaderState.ofText {D : Type} (text : Text) : LoaderState D := { content := fileData text }

end Jinete
