import Verif.Basic

/-!
# Surfaces, positions and metrics

jinete/models/surfaces.py, jinete/models/positions.py, jinete/models/constants.py.
-/

set_option autoImplicit false

namespace Jinete

/-- `DistanceMetric._manhattan_distance`, jinete/models/constants.py:84-86:
`sum(abs(a_i - b_i) for a_i, b_i in zip(a, b))`. `zip` truncates to the shorter argument. -/
def manhattan (a b : Pos) : ℚ := ((a.zip b).map fun p => |p.1 - p.2|).sum

/-- The radicand of `DistanceMetric._euclidean_distance`, jinete/models/constants.py:80-82:
`sum(pow(a_i - b_i, 2) for a_i, b_i in zip(a, b))`. The square root is taken over the reals in
`Verif.Props.Surface`. -/
def euclideanSq (a b : Pos) : ℚ := ((a.zip b).map fun p => (p.1 - p.2) ^ 2).sum

/-- The state of a `GeometricSurface` (jinete/models/surfaces.py:78-100): the set of known positions
and `cached_distance`, a dict of dicts keyed by position equality (positions hash and compare by
coordinates, jinete/models/positions.py:103-110). Generic in the number type of distances. -/
structure SurfaceState (D : Type) where
  positions : List Pos
  cached : Pos → Pos → Option D

/-- `GeometricSurface.__init__`, jinete/models/surfaces.py:81-85, with the `positions` argument of
`Surface.__init__` (48-54). -/
def SurfaceState.new {D : Type} (positions : List Pos) : SurfaceState D :=
  { positions := positions, cached := fun _ _ => none }

/-- `GeometricSurface.distance`, jinete/models/surfaces.py:90-97: look the pair up in the nested
dict, on `KeyError` evaluate the metric on the coordinates and store it. -/
def surfaceDistance {D : Type} (metric : Pos → Pos → D) (a b : Pos) : Py (SurfaceState D) D := do
  let s ← Py.read
  match s.cached a b with
  | some d => pure d
  | none =>
    let d := metric a b
    Py.modify fun s => { s with cached := Function.update s.cached a (Function.update (s.cached a) b (some d)) }
    pure d

/-- `GeometricSurface.time`, jinete/models/surfaces.py:99-100. The keyword arguments (`now`) are
ignored by the code. -/
def surfaceTime {D : Type} (metric : Pos → Pos → D) (a b : Pos) (_now : Option ℚ) :
    Py (SurfaceState D) D :=
  surfaceDistance metric a b

/-- `Surface.get_or_create_position`, jinete/models/surfaces.py:56-60: builds a position, adds it to
the set unless an equal one is there, and returns the one just built. -/
def getOrCreatePosition {D : Type} (coordinates : Pos) : Py (SurfaceState D) Pos := do
  let s ← Py.read
  if coordinates ∈ s.positions then pure coordinates
  else
    Py.modify fun s => { s with positions := coordinates :: s.positions }
    pure coordinates

end Jinete
