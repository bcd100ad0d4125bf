import Verif.Model.Heap

/-!
# What asking questions may do to the objects
-/

set_option autoImplicit false

namespace Jinete

/-- Every attribute of every object is the same, and so is every feasibility verdict memoised before. -/
structure OnlyMemos (h h' : Heap) : Prop where
  core : h'.core = h.core
  stopVerdict : ∀ s b, h.sfeas s = some b → h'.sfeas s = some b
  tripVerdict : ∀ p b, h.pfeas p = some b → h'.pfeas p = some b
  routeVerdict : ∀ r b, h.rfeas r = some b → h'.rfeas r = some b

end Jinete
