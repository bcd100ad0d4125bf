import Verif.Model.Trip

/-!
# Hashes and equality of positions and services

`hash` of numbers is that of CPython on 64-bit machines, as documented ("Hashing of numeric types"). `hash` of strings, which is
different in every process, and of tuples, from those of the elements, are parameters.
-/

set_option autoImplicit false

namespace Jinete

/-- `sys.hash_info.modulus`. -/
def hashModulus : Nat := 2 ^ 61 - 1

/-- The inverse of a denominator, by Fermat's theorem. -/
@[irreducible] def hashInverse (d : Nat) : Nat := if d = 1 then 1 else d ^ (hashModulus - 2) % hashModulus

/-- `hash` of a number: the remainder of the fraction, with its sign; `-1`, which means an error in C, is replaced by `-2`. -/
def numberHash (q : ℚ) : Int :=
  let n := q.num.natAbs % hashModulus
  let x : Int := if q.den % hashModulus = 0 then 314159 else ((n * hashInverse q.den % hashModulus : Nat) : Int)
  let y := if q.num < 0 then -x else x
  if y = -1 then -2 else y

/-- `hash` of a number or of infinity. -/
def boundHash : Bound → Int
  | .fin q => numberHash q
  | .inf => 314159

/-- `hash` of strings and of tuples. -/
structure Hashing where
  string : String → Int
  tuple : List Int → Int

variable (H : Hashing)

/-- `GeometricPosition.__hash__`, jinete/models/positions.py:103-104. -/
def positionHash (p : Pos) : Int := H.tuple (p.map numberHash)

/-- `GeometricPosition.__eq__`, jinete/models/positions.py:106-107: tuples are compared. -/
def positionEq (p q : Pos) : Bool := p = q

/-- `hash` of a pair of a key and a value. -/
def pairHash (key : String) (value : Int) : Int := H.tuple [H.string key, value]

/-- `Service.__hash__`, jinete/models/services.py:86-87, with `__iter__`, jinete/models/services.py:89-95. -/
def serviceHash (s : Service) : Int :=
  H.tuple [pairHash H "position" (positionHash H s.position), pairHash H "earliest" (numberHash s.earliest), pairHash H "latest" (boundHash s.latest),
    pairHash H "duration" (numberHash s.duration)]

/-- `Service.__eq__`, jinete/models/services.py:83-84: hashes are compared. -/
def serviceEq (s s' : Service) : Bool := serviceHash H s = serviceHash H s'

end Jinete
