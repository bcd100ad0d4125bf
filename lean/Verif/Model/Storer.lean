import Verif.Model.Plot

/-!
# Storers and their formatters

jinete/storers/abc.py, jinete/storers/file.py, jinete/storers/prompt.py, jinete/storers/naive.py,
jinete/storers/sets.py and jinete/storers/formatters/hashcode.py. The columnar formatter is in
`Model/Columnar`, what plots show in `Model/Plot`; a formatter is an arbitrary computation in the theorems about storers.
-/

set_option autoImplicit false

namespace Jinete

/-- Python's `<=` on strings: lexicographic by code point. -/
def textLe : Text → Text → Bool
  | [], _ => true
  | _ :: _, [] => false
  | a :: s, b :: t => if a.toNat < b.toNat then true else if b.toNat < a.toNat then false else textLe s t

/-- Insert a line before the first line that is not smaller. -/
def insertLine (x : Text) : List Text → List Text
  | [] => [x]
  | y :: l => if textLe x y then x :: y :: l else y :: insertLine x l

/-- Python's `sorted(lines)`. -/
def sortLines : List Text → List Text
  | [] => []
  | x :: l => insertLine x (sortLines l)

/-- `sep.join(parts)`. -/
def joinWith (sep : Char) (parts : List Text) : Text := List.intercalate [sep] parts

/-- `HashCodeStorerFormatter._route_to_str`, jinete/storers/formatters/hashcode.py:27-30, with
`Route.loaded_trips` and `Route.loaded_trips_count` (jinete/models/routes.py:154-164). `ident` gives the
identifiers of the trips. -/
def hashcodeLine (E : Env) (ident : Nat → Text) (c : Core) (r : Nat) : Text :=
  decimal (routeLoadedTrips E c r).length ++ ' ' :: joinWith ' ' ((routeLoadedTrips E c r).map ident)

/-- `HashCodeStorerFormatter.format`, jinete/storers/formatters/hashcode.py:32-37, with
`StorerFormatter._routes` (abc.py:50-54) and `Planning.loaded_routes` (jinete/models/plannings.py:57-59).
`routes` lists the planning's routes in the iteration order of the set. -/
def hashcodeFormat (E : Env) (ident : Nat → Text) (removeEmpty : Bool) (c : Core) (routes : List Nat) : Text :=
  joinWith '\n' (sortLines (((if removeEmpty then routes.filter (routeLoaded c) else routes)).map (hashcodeLine E ident c)))

/-- The world a storer acts on: whatever formatting works on, the files (a missing file is `none`), the lines
printed so far, what was drawn on the current figure of pyplot, and the figures shown so far. -/
structure World (σ : Type) where
  data : σ
  file : Text → Option Text
  printed : List Text
  figure : List Plot
  shown : List (List Plot)

/-- Run a computation on the data of the world. -/
def onData {σ α : Type} (x : Py σ α) : Py (World σ) α := fun w => ((x w.data).1, { w with data := (x w.data).2 })

/-- `FileStorer.store`, jinete/storers/file.py:25-29: `open("w")` creates or truncates the file before `_formatted`
(jinete/storers/abc.py:51-53) is evaluated; the `with` block closes the file also when formatting raises. That
opening itself may fail is not modelled. -/
def fileStore {σ : Type} (path : Text) (formatted : Py σ Text) : Py (World σ) Unit := do
  Py.modify fun w => { w with file := fun p => if p = path then some [] else w.file p }
  let text ← onData formatted
  Py.modify fun w => { w with file := fun p => if p = path then some text else w.file p }

/-- `PromptStorer.store`, jinete/storers/prompt.py:11-14. -/
def promptStore {σ : Type} (formatted : Py σ Text) : Py (World σ) Unit := do
  let text ← onData formatted
  Py.modify fun w => { w with printed := w.printed ++ [text] }

/-- `GraphPlotStorer.store`, jinete/storers/plots/graph.py:87-111. `nx.draw` adds to the current figure of pyplot. With a path
`plt.savefig` writes an image of the figure (`image`), which stays the current one; without, `plt.show` shows it until its window
is closed, and then there is no current figure. -/
def graphStore {σ : Type} (image : List Plot → Text) (path : Option Text) (plot : Py σ Plot) : Py (World σ) Unit := do
  let g ← onData plot
  Py.modify fun w => { w with figure := w.figure ++ [g] }
  match path with
  | some p => Py.modify fun w => { w with file := fun q => if q = p then some (image w.figure) else w.file q }
  | none => Py.modify fun w => { w with shown := w.shown ++ [w.figure], figure := [] }

/-- `NaiveStorer.store`, jinete/storers/naive.py:14-16. -/
def naiveStore {σ : Type} : Py σ Unit := pure ()

/-- Keyword arguments. -/
abbrev Kwargs (V : Type) := List (String × V)

/-- A storer object: all that is ever called on it is `store`. -/
structure StorerObj (σ : Type) where
  store : Py σ Unit

/-- A class as its constructor called with keyword arguments only. -/
abbrev Class (σ V O : Type) := Kwargs V → Py σ O

/-- `StorerSet.store`, jinete/storers/sets.py:43-50: construct each storer with the arguments of the set, then
store. `classes` lists the set in iteration order. -/
def storerSetStore {σ V : Type} (classes : List (Class σ V (StorerObj σ))) (kwargs : Kwargs V) : Py σ Unit :=
  Py.forEach classes fun cls => do
    let storer ← cls kwargs
    storer.store

/-- Does the call give exactly the parameters: all required ones, none unknown, none twice? Otherwise Python raises
`TypeError`. -/
def callOK (required optional : List String) {V : Type} (kwargs : Kwargs V) : Bool :=
  required.all (fun k => k ∈ kwargs.map Prod.fst) && (kwargs.map Prod.fst).all (fun k => k ∈ required ++ optional) &&
    decide (kwargs.map Prod.fst).Nodup

/-- `Storer.__init__`, jinete/storers/abc.py:38-49: parameters `result` and `formatter_cls`. -/
def storerInit {σ V : Type} (kwargs : Kwargs V) : Py σ Unit :=
  if callOK ["result"] ["formatter_cls"] kwargs then pure () else Py.raise .typeError

/-- `FileStorer.__init__`, jinete/storers/file.py:15-23: `file_path` is taken out, the rest goes to
`Storer.__init__`. -/
def fileStorerInit {σ V : Type} (kwargs : Kwargs V) : Py σ Unit :=
  if "file_path" ∈ kwargs.map Prod.fst then storerInit (kwargs.filter fun p => p.1 ≠ "file_path") else Py.raise .typeError

/-- `GraphPlotStorer.__init__`, jinete/storers/plots/graph.py:32-40: `file_path` may be given, the rest goes to
`Storer.__init__`. -/
def graphStorerInit {σ V : Type} (kwargs : Kwargs V) : Py σ Unit := storerInit (kwargs.filter fun p => p.1 ≠ "file_path")

/-- `StorerSet.__init__`, jinete/storers/sets.py:31-41: `storer_cls_set` is taken out, the rest goes to
`Storer.__init__` and is kept for the constructors of the members. -/
def storerSetInit {σ V : Type} (kwargs : Kwargs V) : Py σ (Kwargs V) :=
  if "storer_cls_set" ∈ kwargs.map Prod.fst then do
    storerInit (kwargs.filter fun p => p.1 ≠ "storer_cls_set")
    pure (kwargs.filter fun p => p.1 ≠ "storer_cls_set")
  else Py.raise .typeError

end Jinete
