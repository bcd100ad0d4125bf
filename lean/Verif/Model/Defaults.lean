import Verif.Model.Columnar
import Verif.Model.Solve

/-!
# The solver with its default classes

jinete/solvers.py:45-55: `FileLoader`, `InsertionAlgorithm`, `PromptStorer` and `StaticDispatcher`, so that only the path of
the instance is given. `FileLoader` reads Cordeau-Laporte data and `PromptStorer` prints the columnar report.
-/

set_option autoImplicit false

namespace Jinete

/-- `ColumnarStorerFormatter` as the storers construct it, jinete/storers/formatters/columnar.py:22-48 and
jinete/storers/abc.py:51-53: tabs are two blanks, routes without trips are shown. The UUID of the planning, the seconds the
computation took and `str` of a number are parameters. -/
def columnarOutput (str : ℚ → Text) (uuid : Text) (seconds : ℚ) : OutputFormat := fun P rs =>
  columnarFormat P.env str "  ".toList P.ident P.vehicleIdent uuid seconds P.objective false P.job rs

/-- The class `PromptStorer`, jinete/storers/prompt.py:8-14 and abc.py:38-53; `columnar` is the default formatter. -/
def promptStorer (columnar : OutputFormat) : Class Site Item (StorerObj Site) := fun kwargs => do
  storerInit kwargs
  match kwargs.lookup "result", kwargs.lookup "formatter_cls" with
  | some (.result P routes), none | some (.result P routes), some (.arg .none) => pure ⟨promptStore (onObjects (columnar P routes))⟩
  | some (.result P routes), some (.output f) => pure ⟨promptStore (onObjects (f P routes))⟩
  | _, _ => Py.raise .typeError

/-- `Solver(loader_kwargs={"file_path": source})`, jinete/solvers.py:45-91, but for the algorithm, which is a parameter: by
default it is `InsertionAlgorithm`. -/
def defaultSolver (euclid : Pos → Pos → ℚ) (columnar : OutputFormat) (source : Text) (optimize : Problem → M (List Nat)) : Solver Site Item where
  loader := fileLoader euclid
  loaderKwargs := [("file_path", .path source)]
  algorithm := algorithmClass optimize
  algorithmKwargs := []
  storer := promptStorer columnar
  storerKwargs := []
  dispatcherKwargs := []

end Jinete
