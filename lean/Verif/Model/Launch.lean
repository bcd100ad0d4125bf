import Verif.Model.Loader

/-!
# The program that runs the benchmark on every instance

examples/cordeau/benchmark_launch.py. Each instance is solved by a process of its own; what the processes do to the files, and how they end, is
arbitrary. Several run at the same time: an execution is any interleaving of what the calls of `run_one` do. What is printed is not modelled.
-/

set_option autoImplicit false

namespace Jinete

/-- How `check_output` of a process ends: it returns the output, or raises `CalledProcessError` (the process failed), or `TimeoutExpired`, with the
output so far or `None` if there was none. `garbled`: the output, complete or not, is not UTF-8. -/
inductive ChildEnd
  | completed (output : Text)
  | failed
  | expired (output : Option Text)
  | garbled

/-- A process: what it does to the files, and how it ends. -/
structure Child where
  effect : (Text → Option Text) → Text → Option Text
  ending : ChildEnd

/-- A step of the program. -/
inductive LaunchStep
  | run (c : Child)
  | write (path content : Text)

/-- `f"{file_path.name}.log"` in the directory of the instance, examples/cordeau/benchmark_launch.py:37. -/
def logPath (path : Text) : Text := path ++ ".log".toList

/-- `run_one`, examples/cordeau/benchmark_launch.py:28-41: what it does, given the process. `exc.output.decode()` raises `AttributeError` if the output is
`None`, and a failed process raises before the log is opened; in both cases nothing is written. -/
def runOne (path : Text) (c : Child) : List LaunchStep :=
  .run c :: match c.ending with
    | .completed output => [.write (logPath path) output]
    | .expired (some output) => [.write (logPath path) output]
    | .expired none => []
    | .failed => []
    | .garbled => []

/-- The files after a step. -/
def LaunchStep.apply (file : Text → Option Text) : LaunchStep → Text → Option Text
  | .run c => c.effect file
  | .write path content => fun q => if q = path then some content else file q

/-- The steps of several lists, interleaved in some way. -/
inductive Interleaved {α : Type} : List (List α) → List α → Prop
  | done {ls} : (∀ l ∈ ls, l = []) → Interleaved ls []
  | step {a b l x r} : Interleaved (a ++ l :: b) r → Interleaved (a ++ (x :: l) :: b) (x :: r)

/-- `main`, examples/cordeau/benchmark_launch.py:22-25: `run_one` for every instance, in processes of a pool. Nobody asks the futures for their results, so that
exceptions are dropped. `file'` are the files after some execution. -/
def LaunchEnds (instances : List (Text × Child)) (file file' : Text → Option Text) : Prop :=
  ∃ steps, Interleaved (instances.map fun x => runOne x.1 x.2) steps ∧ file' = steps.foldl LaunchStep.apply file

end Jinete
