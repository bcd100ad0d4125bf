import Verif.Model.Storer

/-!
# Dispatcher and solver

jinete/dispatchers/abc.py, jinete/dispatchers/static.py and jinete/solvers.py. Loaders, algorithms and storers are
arbitrary classes: constructors that take keyword arguments and may fail, objects whose methods may fail and change
the state.
-/

set_option autoImplicit false

namespace Jinete

variable {σ V : Type}

/-- A loader object: `job` and `fleet` are properties that may compute. -/
structure LoaderObj (σ V : Type) where
  job : Py σ V
  fleet : Py σ V

/-- An algorithm object. -/
structure AlgorithmObj (σ V : Type) where
  optimize : Py σ V

/-- `StaticDispatcher.run`, jinete/dispatchers/static.py:18-35. `storer_cls` is never `None`: `Dispatcher.__init__`
(jinete/dispatchers/abc.py:37-38) has replaced it. -/
def staticRun (loader : Class σ V (LoaderObj σ V)) (algorithm : Class σ V (AlgorithmObj σ V))
    (storer : Class σ V (StorerObj σ)) : Py σ V := do
  let l ← loader []
  let job ← l.job
  let fleet ← l.fleet
  let a ← algorithm [("fleet", fleet), ("job", job)]
  let result ← a.optimize
  let s ← storer [("result", result)]
  s.store
  pure result

/-- The classes built by `Solver._loader_cls`, `_algorithm_cls`, `_storer_cls` and `_dispatcher_cls`,
jinete/solvers.py:93-143: `super().__init__(*args, **kwargs, **tuned_kwargs)`; a name given twice is a
`TypeError`. -/
def tuned {O : Type} (base : Class σ V O) (kwargs : Kwargs V) : Class σ V O := fun call =>
  if decide ((call ++ kwargs).map Prod.fst).Nodup then base (call ++ kwargs) else Py.raise .typeError

/-- A `Solver`, jinete/solvers.py:45-91: the classes and their keyword arguments (dicts: no name twice). -/
structure Solver (σ V : Type) where
  loader : Class σ V (LoaderObj σ V)
  loaderKwargs : Kwargs V
  algorithm : Class σ V (AlgorithmObj σ V)
  algorithmKwargs : Kwargs V
  storer : Class σ V (StorerObj σ)
  storerKwargs : Kwargs V
  dispatcherKwargs : Kwargs V

/-- `Solver.solve` with the default dispatcher, jinete/solvers.py:145-154. `StaticDispatcher` takes exactly the three
classes, which are passed by position, so any keyword argument (`dispatcher_kwargs`) is a `TypeError`. -/
def Solver.solve (S : Solver σ V) : Py σ V :=
  if S.dispatcherKwargs.isEmpty then
    staticRun (tuned S.loader S.loaderKwargs) (tuned S.algorithm S.algorithmKwargs) (tuned S.storer S.storerKwargs)
  else Py.raise .typeError

end Jinete
