import Verif.Model.Programs
import Verif.Spec.Plot

/-!
# What storers should do with a result
-/

set_option autoImplicit false

namespace Jinete

/-- A world without the data. -/
def World.outside {σ : Type} (w : World σ) : World Unit := { w with data := () }

/-- What a storer should do, given the report and the plot of the result: print the report, write it to a file, add the plot to the
figure and save or show it, or nothing. -/
def StorerName.stores (image : List Plot → Text) (report : Text) (g : Plot) (w : World Unit) : StorerName → World Unit
  | .naive | .file none => w
  | .prompt => { w with printed := w.printed ++ [report] }
  | .file (some p) => { w with file := fun q => if q = p then some report else w.file q }
  | .graph (some p) => { w with figure := w.figure ++ [g], file := fun q => if q = p then some (image (w.figure ++ [g])) else w.file q }
  | .graph none => { w with figure := [], shown := w.shown ++ [w.figure ++ [g]] }

/-- What several storers do, one after the other. -/
def storeAll (image : List Plot → Text) (report : Text) (g : Plot) (l : List StorerName) (w : World Unit) : World Unit :=
  l.foldl (StorerName.stores image report g) w

end Jinete
