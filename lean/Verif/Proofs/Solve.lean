import Verif.Model.Solve
import Verif.Props.Contest
import Verif.Props.File
import Verif.Props.Storer
import Verif.Props.Whole
import Verif.Spec.Problem

/-!
# How a solver with files runs
-/

set_option autoImplicit false

namespace Jinete

/-- Change the data of the world. -/
def World.withData {σ : Type} (w : World σ) (d : σ) : World σ := { w with data := d }

/-- Put a text into a file. -/
def World.withFile {σ : Type} (w : World σ) (p t : Text) : World σ := { w with file := fun q => if q = p then some t else w.file q }

/-- Once the problem is loaded, the outcome is that of the algorithm, then that of formatting. -/
theorem solve_file {euclid : Pos → Pos → ℚ} {columnar : OutputFormat} {source target : Text} {F : InputFormat} {f : OutputFormat}
    {optimize : Problem → M (List Nat)} {w : Site} {text : Text} {trips : List LoadedTrip} {vehicles : List LoadedVehicle}
    {s s' : LoaderState ℚ} (ht : w.file source = some text) (hj : loaderJob F.formatter (LoaderState.ofText text) = (.ok trips, s))
    (hf : loaderFleet F.formatter s = (.ok vehicles, s')) :
    (fileSolver euclid columnar source target F f optimize).solve w =
      match optimize ⟨F.metric, F.objective, trips, vehicles⟩ w.data.2 with
      | (.error e, h) => (.error e, w.withData (s', h))
      | (.ok rs, h) =>
        match f ⟨F.metric, F.objective, trips, vehicles⟩ rs h with
        | (.error e, h') => (.error e, (w.withData (s', h')).withFile target [])
        | (.ok t, h') => (.ok (.result ⟨F.metric, F.objective, trips, vehicles⟩ rs), (w.withData (s', h')).withFile target t) := by
  have hl : tuned (fileLoader euclid) [("file_path", .path source), ("formatter_cls", .input F)] [] = newFileLoader source F := rfl
  unfold Solver.solve fileSolver
  simp only [List.isEmpty_nil, if_true]
  unfold staticRun
  rw [hl]
  unfold newFileLoader
  rw [Py.bind_assoc_run, Py.modify_bind]
  rw [ht]
  simp only [Option.elim_some]
  rw [Py.pure_bind, Py.bind_assoc_run]
  refine (Py.bind_ok (show onLoader (loaderJob F.formatter) (w.withData (LoaderState.ofText text, w.data.2)) = (.ok trips, w.withData (s, w.data.2)) by
    simp only [onLoader, onData, World.withData, hj])).trans ?_
  rw [Py.pure_bind, Py.bind_assoc_run]
  rw [Py.bind_ok (show onLoader (loaderFleet F.formatter) (w.withData (s, w.data.2)) = (.ok vehicles, w.withData (s', w.data.2)) by
    simp only [onLoader, onData, World.withData, hf])]
  rw [Py.pure_bind]
  have ha : tuned (algorithmClass optimize) [] [("fleet", .fleet vehicles), ("job", .job F.metric F.objective trips)] = pure
      { optimize := do
          let routes ← onData (onObjects (optimize ⟨F.metric, F.objective, trips, vehicles⟩))
          pure (.result ⟨F.metric, F.objective, trips, vehicles⟩ routes) } := rfl
  rw [ha, Py.pure_bind, Py.bind_assoc_run]
  rcases e : optimize ⟨F.metric, F.objective, trips, vehicles⟩ w.data.2 with ⟨er | rs, h⟩
  · rw [Py.bind_error (s' := w.withData (s', h)) (e := er) (by simp only [onData, onObjects, World.withData, e])]
  · rw [Py.bind_ok (s' := w.withData (s', h)) (a := rs) (by simp only [onData, onObjects, World.withData, e])]
    rw [Py.pure_bind]
    have hs : tuned (fileStorer columnar) [("file_path", .path target), ("formatter_cls", .output f)]
        [("result", .result ⟨F.metric, F.objective, trips, vehicles⟩ rs)] = pure
          ⟨fileStore target (onObjects (f ⟨F.metric, F.objective, trips, vehicles⟩ rs))⟩ := rfl
    rw [hs, Py.pure_bind]
    simp only
    unfold fileStore
    rw [Py.bind_assoc_run, Py.modify_bind, Py.bind_assoc_run]
    rcases e2 : f ⟨F.metric, F.objective, trips, vehicles⟩ rs h with ⟨er | t, h'⟩
    · rw [Py.bind_error (s' := (w.withData (s', h')).withFile target []) (e := er) (by simp only [onData, onObjects, World.withData, e2, World.withFile])]
    · rw [Py.bind_ok (s' := (w.withData (s', h')).withFile target []) (a := t) (by simp only [onData, onObjects, World.withData, e2, World.withFile])]
      rw [Py.modify_bind, Py.pure_run]
      simp only [World.withFile, World.withData]
      congr 2
      funext q
      split <;> rfl

end Jinete
