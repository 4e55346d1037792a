import Verif.Model.ShowOperator
import Verif.Spec.Text
/-!
# Specification: showing operators
-/

namespace Verif.Show

open Verif.Spec

/-- The figure of an operator: its text and nothing else, in the middle, without axes. -/
def handwritten (x : Txt) : TextFig := ⟨[(1 / 2, 1 / 2, x)], true, false⟩

/-- The figure a failed call leaves behind: axes without any text. -/
def blank : TextFig := ⟨[], false, true⟩

/-- What a call of `show` does, if `latex` is the LaTeX form for the same arguments.  Success: one more display, of all
open figures, the last of which is that of the operator.  Failure: the exception of `tolatex`; nothing is displayed;
one more blank figure is open. -/
def ShowsLatex (close : List TextFig → List TextFig) (latex : Py Txt) (before : Screen) (result : Screen × Py Unit) : Prop :=
  (∀ x, latex = .ok x → IsMath x ∧ result.2 = .ok () ∧
    result.1.displays = before.displays ++ [before.figs ++ [handwritten x]] ∧
    result.1.figs = close (before.figs ++ [handwritten x])) ∧
  (∀ e, latex = .error e → result.2 = .error e ∧ result.1.displays = before.displays ∧
    result.1.figs = before.figs ++ [blank])

/-- Some calls of `show` one after the other; each is given as a function of the screen. -/
def runShows (calls : List (Screen → Screen × Py Unit)) (s : Screen) : Screen := calls.foldl (fun s c => (c s).1) s

end Verif.Show
