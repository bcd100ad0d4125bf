import Verif.Model.Solve

/-!
# Specification: trips and vehicles of a problem by number
-/

set_option autoImplicit false

namespace Jinete

/-- Numbers stand for the trips and vehicles as loaded: number `k` is the `k`-th of them, with its name, and the job and the
fleet are all of them, each once. -/
structure Depicts (P : Problem) (E : Env) (ident vehicleIdent : Nat → Text) (fleet job : List Nat) : Prop where
  metric : E.metric = P.metric
  trip : ∀ k t, P.trips[k]? = some t → E.trip k = t.trip ∧ ident k = t.identifier
  vehicle : ∀ k v, P.vehicles[k]? = some v → E.vehicle k = v.vehicle ∧ vehicleIdent k = v.identifier
  job : job.Nodup ∧ ∀ k, k ∈ job ↔ ∃ t, P.trips[k]? = some t
  fleet : fleet.Nodup ∧ ∀ k, k ∈ fleet ↔ ∃ v, P.vehicles[k]? = some v

theorem getElem?_some_iff {α : Type} (l : List α) (k : Nat) : k < l.length ↔ ∃ x, l[k]? = some x :=
  ⟨fun h => ⟨_, List.getElem?_eq_getElem h⟩, fun ⟨_, h⟩ => (List.getElem?_eq_some_iff.1 h).1⟩

theorem Problem.depicted (P : Problem) : Depicts P P.env P.ident P.vehicleIdent P.fleet P.job where
  metric := rfl
  trip k t h := by simp [Problem.env, Problem.ident, h]
  vehicle k v h := by simp [Problem.env, Problem.vehicleIdent, h]
  job := ⟨List.nodup_range, fun k => by rw [Problem.job, List.mem_range]; exact getElem?_some_iff P.trips k⟩
  fleet := ⟨List.nodup_range, fun k => by rw [Problem.fleet, List.mem_range]; exact getElem?_some_iff P.vehicles k⟩

end Jinete
