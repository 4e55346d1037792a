import Verif.Model.Text
/-!
# The `show` methods of operators and terms

particlesystem.py:237-255, 682-700, 1068-1094; spinsystem.py:193-211, 578-603.  pyplot keeps a list of open figures,
`plt.subplots()` appends one to it and `plt.show()` displays all of them.  Which of them are still open afterwards
depends on the backend and on the user (a window that is closed is removed from the list): this is the parameter
`close`.  Fonts and colours are not modelled.
-/

namespace Verif.Show

/-- What is in a figure with one set of axes: texts with their position in units of the axes, whether they are centred
there, and whether the axes are drawn.
Used at particlesystem.py:249-255. -/
structure TextFig where
  texts : List (ℚ × ℚ × Txt)
  centred : Bool
  axesOn : Bool
deriving DecidableEq

/-- The state of pyplot: the open figures, and what was displayed so far (one list of figures per `plt.show()`).
Used at particlesystem.py:249-255. -/
structure Screen where
  figs : List TextFig
  displays : List (List TextFig)
deriving DecidableEq

/-- The common body (particlesystem.py:249-255, 694-700, 1087-1094; spinsystem.py:205-211, 597-603):
`plt.subplots()`, then the LaTeX form is computed, which may raise, then `ax.text(0.5, 0.5, ...)`,
`ax.set_axis_off()`, `plt.show()`. -/
def showText (close : List TextFig → List TextFig) (latex : Py Txt) (s : Screen) : Screen × Py Unit :=
  match latex with
  | .error e => ({ s with figs := s.figs ++ [⟨[], false, true⟩] }, .error e)
  | .ok x =>
    let figs := s.figs ++ [⟨[(1 / 2, 1 / 2, x)], true, false⟩]
    (⟨close figs, s.displays ++ [figs]⟩, .ok ())

end Verif.Show

namespace Verif

open Show

/-- `AoC.show` (particlesystem.py:237-255). -/
def AoC.show (close : List TextFig → List TextFig) (ft : F64 → Txt) (zoom : ℤ) (a : AoC) (siteIndex : SiteIndex := .none)
    (o : LatexOpts := {}) (s : Screen) : Screen × Py Unit :=
  showText close (a.tolatex ft zoom siteIndex o) s

/-- `NumberOperator.show` (particlesystem.py:682-700). -/
def NumberOperator.show (close : List TextFig → List TextFig) (ft : F64 → Txt) (zoom : ℤ) (n : NumberOperator)
    (siteIndex : SiteIndex := .none) (o : LatexOpts := {}) (s : Screen) : Screen × Py Unit :=
  showText close (n.tolatex ft zoom siteIndex o) s

/-- `SpinOperator.show` (spinsystem.py:193-211). -/
def SpinOperator.show (close : List TextFig → List TextFig) (ft : F64 → Txt) (x : SpinOperator)
    (siteIndex : SiteIndex := .none) (ndigits : ℤ := 4) (s : Screen) : Screen × Py Unit :=
  showText close (x.tolatex ft siteIndex ndigits) s

/-- `ParticleTerm.show` (particlesystem.py:1068-1094), `coeff` is `str(self._coeff)`. -/
def ParticleTerm.show (close : List TextFig → List TextFig) (ft : F64 → Txt) (zoom : ℤ) (t : ParticleTerm) (coeff : Txt)
    (table : Option (IndexTable AnyObj) := none) (o : LatexOpts := {}) (s : Screen) : Screen × Py Unit :=
  showText close (t.tolatex ft zoom coeff table o) s

/-- `SpinInteraction.show` (spinsystem.py:578-603), `coeff` is `str(self._coeff)`. -/
def SpinInteraction.show (close : List TextFig → List TextFig) (ft : F64 → Txt) (t : SpinInteraction) (coeff : Txt)
    (table : Option (IndexTable AnyObj) := none) (ndigits : ℤ := 4) (s : Screen) : Screen × Py Unit :=
  showText close (t.tolatex ft coeff table ndigits) s

end Verif
