import Mathlib.Data.Rat.Defs
import Mathlib.Algebra.Order.Field.Rat
import Mathlib.Tactic.Linarith
import Mathlib.Tactic.Ring
import Mathlib.Logic.Function.Basic

/-!
# Shared vocabulary of the model

Exceptions, the state-and-exception monad in which Python methods are written, and
upper bounds that may be infinite (`MAX_FLOAT = inf`, `jinete/models/constants.py:41`).
-/

set_option autoImplicit false

namespace Jinete

/-- Python exception classes the modelled code can raise. -/
inductive Err
  | assertion            -- AssertionError (`assert ...`)
  | indexError           -- IndexError (list index out of range)
  | keyError             -- KeyError (dict lookup)
  | typeError            -- TypeError (`None` used as a number or object, reduce of empty sequence)
  | attributeError       -- AttributeError (`None.x`)
  | recursionError       -- RecursionError (cyclic `previous` chain)
  | valueError           -- ValueError (unparsable text, `list.remove`, empty `min`)
  | zeroDivision         -- ZeroDivisionError
  | stopIteration        -- StopIteration (`next` on an exhausted iterator)
  | previousStopNotInRoute -- jinete/models/../exceptions.py PreviousStopNotInRouteException
  | nonFeasibleRoute     -- NonFeasibleRouteException
  | runtime              -- Exception / any other class
  | outOfFuel            -- not an exception: a loop of the model ran out of fuel (the code is still running)
  deriving DecidableEq, Repr

/-- A Python computation on a mutable state `σ`: it returns or raises, and in both cases
leaves a state behind (Python does not roll back on exceptions). -/
def Py (σ : Type) (α : Type) := σ → Except Err α × σ

namespace Py

variable {σ α β : Type}

def pure (a : α) : Py σ α := fun s => (.ok a, s)

def bind (x : Py σ α) (f : α → Py σ β) : Py σ β := fun s =>
  match x s with
  | (.ok a, s') => f a s'
  | (.error e, s') => (.error e, s')

instance : Monad (Py σ) where
  pure := Py.pure
  bind := Py.bind

/-- `raise e`. -/
def raise (e : Err) : Py σ α := fun s => (.error e, s)

/-- Read the state. -/
def read : Py σ σ := fun s => (.ok s, s)

/-- Update the state. -/
def modify (f : σ → σ) : Py σ Unit := fun s => (.ok (), f s)

/-- `assert b`. -/
def assert (b : Bool) : Py σ Unit := if b then pure () else raise .assertion

@[simp] theorem pure_run (a : α) (s : σ) : (Pure.pure a : Py σ α) s = (.ok a, s) := rfl
@[simp] theorem pure_run' (a : α) (s : σ) : (Py.pure a : Py σ α) s = (.ok a, s) := rfl
theorem bind_run (x : Py σ α) (f : α → Py σ β) (s : σ) :
    (x >>= f) s = match x s with
      | (.ok a, s') => f a s'
      | (.error e, s') => (.error e, s') := rfl
@[simp] theorem raise_run (e : Err) (s : σ) : (raise e : Py σ α) s = (.error e, s) := rfl
@[simp] theorem read_run (s : σ) : (read : Py σ σ) s = (.ok s, s) := rfl
@[simp] theorem modify_run (f : σ → σ) (s : σ) : (modify f) s = (.ok (), f s) := rfl
@[simp] theorem assert_true (s : σ) : (assert true : Py σ Unit) s = (.ok (), s) := rfl
@[simp] theorem assert_false (s : σ) : (assert false : Py σ Unit) s = (.error .assertion, s) := rfl

theorem bind_ok {x : Py σ α} {f : α → Py σ β} {s s' : σ} {a : α} (h : x s = (.ok a, s')) :
    (x >>= f) s = f a s' := by simp [bind_run, h]

theorem bind_error {x : Py σ α} {f : α → Py σ β} {s s' : σ} {e : Err} (h : x s = (.error e, s')) :
    (x >>= f) s = (.error e, s') := by simp [bind_run, h]

@[simp] theorem read_bind (f : σ → Py σ β) (s : σ) : (read >>= f) s = f s s := rfl
@[simp] theorem modify_bind (g : σ → σ) (f : Unit → Py σ β) (s : σ) :
    (modify g >>= f) s = f () (g s) := rfl
@[simp] theorem pure_bind (a : α) (f : α → Py σ β) (s : σ) :
    ((Pure.pure a : Py σ α) >>= f) s = f a s := rfl
@[simp] theorem raise_bind (e : Err) (f : α → Py σ β) (s : σ) :
    ((raise e : Py σ α) >>= f) s = (.error e, s) := rfl

theorem bind_assoc_run (x : Py σ α) (f : α → Py σ β) {γ : Type} (g : β → Py σ γ) (s : σ) :
    ((x >>= f) >>= g) s = (x >>= fun a => f a >>= g) s := by
  simp only [bind_run]
  cases h : x s with
  | mk r s' => cases r <;> rfl

/-- `for x in l: f x`. -/
def forEach (l : List α) (f : α → Py σ Unit) : Py σ Unit :=
  match l with
  | [] => pure ()
  | x :: l => f x >>= fun _ => forEach l f

/-- `[f x for x in l]` with effects, in order. -/
def mapEach (l : List α) (f : α → Py σ β) : Py σ (List β) :=
  match l with
  | [] => pure []
  | x :: l => f x >>= fun y => mapEach l f >>= fun ys => pure (y :: ys)

/-- `all(f x for x in l)`: stops at the first `False`. -/
def allEach (l : List α) (f : α → Py σ Bool) : Py σ Bool :=
  match l with
  | [] => pure true
  | x :: l => f x >>= fun b => if b then allEach l f else pure false

/-- `l[i]` for a non-negative index. -/
def index (l : List α) (i : Nat) : Py σ α :=
  match l[i]? with
  | some a => pure a
  | none => raise .indexError

/-- Unwrap an attribute that may be `None`; `e` is the exception Python raises when it is. -/
def unwrap (e : Err) (o : Option α) : Py σ α :=
  match o with
  | some a => pure a
  | none => raise e

end Py

/-! ## Bounds -/

/-- A number or `inf` (`MAX_FLOAT`, jinete/models/constants.py:41). Used for latest times and
timeouts. `-inf` and NaN are not modelled. -/
inductive Bound
  | fin (q : ℚ)
  | inf
  deriving DecidableEq, Repr

namespace Bound

/-- `b + q` for a finite `q`. -/
def addQ : Bound → ℚ → Bound
  | fin a, q => fin (a + q)
  | inf, _ => inf

/-- `b - q` for a finite `q`. -/
def subQ (b : Bound) (q : ℚ) : Bound := b.addQ (-q)

/-- `a + b`. -/
def add : Bound → Bound → Bound
  | fin a, fin b => fin (a + b)
  | _, _ => inf

/-- Python `min(a, b)`. -/
def min : Bound → Bound → Bound
  | fin a, fin b => fin (if b < a then b else a)
  | fin a, inf => fin a
  | inf, b => b

/-- `x <= b`. -/
def leQ (x : ℚ) : Bound → Bool
  | fin b => decide (x ≤ b)
  | inf => true

/-- `a <= b`. -/
def le : Bound → Bound → Bool
  | fin a, b => leQ a b
  | inf, inf => true
  | inf, fin _ => false

end Bound

/-- `ERROR_BOUND = 10e-4`, jinete/models/constants.py:44. -/
def errorBound : ℚ := 1 / 1000

/-- Coordinates of a `GeometricPosition`; two positions are equal iff their coordinates are
(jinete/models/positions.py:103-110), so positions are identified with coordinates. -/
abbrev Pos := List ℚ

/-- Python `max(l, default=d)` on numbers. -/
def maxD (d : ℚ) : List ℚ → ℚ
  | [] => d
  | x :: l => l.foldl max x

/-- Python `min(l, default=inf)` on numbers-or-inf. -/
def minBound : List Bound → Bound
  | [] => .inf
  | x :: l => l.foldl Bound.min x

end Jinete
