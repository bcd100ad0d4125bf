import Verif.Model.Dispatch
import Verif.Spec.RouteState
import Verif.Spec.Loader

/-!
# Specification: reading the HashCode output back, and the calls made by storers and dispatchers
-/

set_option autoImplicit false

namespace Jinete

/-- Cut a text at every occurrence of a character (always at least one piece). -/
def cut (c : Char) : Text → List Text
  | [] => [[]]
  | x :: t =>
    if x = c then [] :: cut c t
    else match cut c t with
      | [] => [[x]]
      | p :: ps => (x :: p) :: ps

/-- Read one line of HashCode output: a number, then that many identifiers, separated by single blanks. -/
def readLine (t : Text) : Nat × List Text :=
  match cut ' ' t with
  | [] => (0, [])
  | n :: ids => (readNat n, ids.take (readNat n))

/-- Read HashCode output: one entry per line; an empty text has no lines. -/
def readOutput (t : Text) : List (Nat × List Text) :=
  if t = [] then [] else (cut '\n' t).map readLine

/-- No blank and no line break. -/
def NoBlanks (t : Text) : Prop := ' ' ∉ t ∧ '\n' ∉ t

/-- What HashCode output should say about a route: how many trips with passengers it serves, and which, in the
order in which they are picked up. -/
def routeEntry (E : Env) (ident : Nat → Text) (c : Core) (r : Nat) : Nat × List Text :=
  let served := ((itinerary c r).flatMap Visit.picks).filter fun t => (E.trip t).capacity ≠ 0
  (served.length, served.map ident)

/-- Does the route serve any trip? -/
def servesAny (c : Core) (r : Nat) : Bool := ((itinerary c r).flatMap Visit.picks) ≠ []

/-! ## Calls -/

/-- A call made by a dispatcher or a storer set, and how it ended. -/
inductive Call (V : Type)
  | newLoader (kwargs : Kwargs V) (err : Option Err)
  | job (r : Except Err V)
  | fleet (r : Except Err V)
  | newAlgorithm (kwargs : Kwargs V) (err : Option Err)
  | optimize (r : Except Err V)
  | newStorer (i : Nat) (kwargs : Kwargs V) (err : Option Err)
  | store (i : Nat) (err : Option Err)

/-- The error of an outcome. -/
def errorOf {α : Type} : Except Err α → Option Err
  | .ok _ => none
  | .error e => some e

variable {σ V : Type}

/-- Run a computation on a state with a record of calls, and record it. -/
def recorded {α : Type} (what : Except Err α → Call V) (x : Py σ α) : Py (σ × List (Call V)) α :=
  fun s => ((x s.1).1, ((x s.1).2, s.2 ++ [what (x s.1).1]))

/-- A loader class whose calls are recorded. -/
def recordedLoader (cls : Class σ V (LoaderObj σ V)) : Class (σ × List (Call V)) V (LoaderObj (σ × List (Call V)) V) :=
  fun kwargs s =>
    match recorded (fun r => .newLoader kwargs (errorOf r)) (cls kwargs) s with
    | (.ok l, s') => (.ok ⟨recorded .job l.job, recorded .fleet l.fleet⟩, s')
    | (.error e, s') => (.error e, s')

/-- An algorithm class whose calls are recorded. -/
def recordedAlgorithm (cls : Class σ V (AlgorithmObj σ V)) :
    Class (σ × List (Call V)) V (AlgorithmObj (σ × List (Call V)) V) :=
  fun kwargs s =>
    match recorded (fun r => .newAlgorithm kwargs (errorOf r)) (cls kwargs) s with
    | (.ok a, s') => (.ok ⟨recorded .optimize a.optimize⟩, s')
    | (.error e, s') => (.error e, s')

/-- A storer class, number `i`, whose calls are recorded. -/
def recordedStorer (i : Nat) (cls : Class σ V (StorerObj σ)) : Class (σ × List (Call V)) V (StorerObj (σ × List (Call V))) :=
  fun kwargs s =>
    match recorded (fun r => .newStorer i kwargs (errorOf r)) (cls kwargs) s with
    | (.ok o, s') => (.ok ⟨recorded (fun r => .store i (errorOf r)) o.store⟩, s')
    | (.error e, s') => (.error e, s')

/-- A solver whose calls are recorded. -/
def Solver.recorded (S : Solver σ V) : Solver (σ × List (Call V)) V :=
  { S with loader := recordedLoader S.loader, algorithm := recordedAlgorithm S.algorithm, storer := recordedStorer 0 S.storer }

/-- The admissible runs of the pipeline with keyword arguments `lk`, `ak`, `sk` for loader, algorithm and storer: how
it ends and which calls it makes. The job and the fleet given to the algorithm are those the loader returned; the
result stored and returned is the one the algorithm returned; nothing is called after a failure. A configured
argument that clashes with one of these (`fleet`, `job`, `result`) makes the constructor call itself fail. -/
inductive PipelineRun (lk ak sk : Kwargs V) : Except Err V → List (Call V) → Prop
  | loaderFails (e) : PipelineRun lk ak sk (.error e) [.newLoader lk (some e)]
  | jobFails (e) : PipelineRun lk ak sk (.error e) [.newLoader lk none, .job (.error e)]
  | fleetFails (j e) : PipelineRun lk ak sk (.error e) [.newLoader lk none, .job (.ok j), .fleet (.error e)]
  | algorithmClash (j f) : ¬ (([("fleet", f), ("job", j)] ++ ak).map Prod.fst).Nodup →
      PipelineRun lk ak sk (.error .typeError) [.newLoader lk none, .job (.ok j), .fleet (.ok f)]
  | algorithmFails (j f e) : PipelineRun lk ak sk (.error e)
      [.newLoader lk none, .job (.ok j), .fleet (.ok f), .newAlgorithm ([("fleet", f), ("job", j)] ++ ak) (some e)]
  | optimizeFails (j f e) : PipelineRun lk ak sk (.error e)
      [.newLoader lk none, .job (.ok j), .fleet (.ok f), .newAlgorithm ([("fleet", f), ("job", j)] ++ ak) none,
        .optimize (.error e)]
  | storerClash (j f r) : ¬ (([("result", r)] ++ sk).map Prod.fst).Nodup → PipelineRun lk ak sk (.error .typeError)
      [.newLoader lk none, .job (.ok j), .fleet (.ok f), .newAlgorithm ([("fleet", f), ("job", j)] ++ ak) none,
        .optimize (.ok r)]
  | storerFails (j f r e) : PipelineRun lk ak sk (.error e)
      [.newLoader lk none, .job (.ok j), .fleet (.ok f), .newAlgorithm ([("fleet", f), ("job", j)] ++ ak) none,
        .optimize (.ok r), .newStorer 0 ([("result", r)] ++ sk) (some e)]
  | storeFails (j f r e) : PipelineRun lk ak sk (.error e)
      [.newLoader lk none, .job (.ok j), .fleet (.ok f), .newAlgorithm ([("fleet", f), ("job", j)] ++ ak) none,
        .optimize (.ok r), .newStorer 0 ([("result", r)] ++ sk) none, .store 0 (some e)]
  | done (j f r) : PipelineRun lk ak sk (.ok r)
      [.newLoader lk none, .job (.ok j), .fleet (.ok f), .newAlgorithm ([("fleet", f), ("job", j)] ++ ak) none,
        .optimize (.ok r), .newStorer 0 ([("result", r)] ++ sk) none, .store 0 none]

/-- The admissible runs of a set of `n` storers with the same keyword arguments, starting with number `i`. -/
inductive StorersRun (kwargs : Kwargs V) : Nat → Nat → Except Err Unit → List (Call V) → Prop
  | done (i) : StorersRun kwargs i 0 (.ok ()) []
  | newFails (i n e) : StorersRun kwargs i (n + 1) (.error e) [.newStorer i kwargs (some e)]
  | storeFails (i n e) : StorersRun kwargs i (n + 1) (.error e) [.newStorer i kwargs none, .store i (some e)]
  | next {i n r log} : StorersRun kwargs (i + 1) n r log →
      StorersRun kwargs i (n + 1) r (.newStorer i kwargs none :: .store i none :: log)

end Jinete
