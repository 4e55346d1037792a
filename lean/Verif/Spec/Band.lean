import Verif.Model.DemoGreen
/-!
# Spec: the spectrum of a tight-binding ring
-/

namespace Verif.Spec

open Verif.Demo

/-- The k-points are `2 pi i / n`, `i = 0, ..., n`; up to the error `err` the Green function is
`S / (omega + i eta - 2 t cos k)` and the spectrum is `S` times the normalised Lorentzian of width `eta`
centred at the band energy `2 t cos k`. -/
def IsBandSpectrum (n S : ℕ) (t : ℝ) (omegas : List ℝ) (eta err : ℝ) (R : Spectrum omegas.length) : Prop :=
  R.kpts = (List.range (n + 1)).map (fun i : ℕ => [2 * Real.pi * i / n]) ∧
  ∀ (wi : Fin omegas.length) (i : Fin R.kpts.length),
    ‖R.gfs wi i - S / ((omegas.get wi : ℂ) + Complex.I * eta -
      ((2 * t * Real.cos (2 * Real.pi * (i : ℕ) / n) : ℝ) : ℂ))‖ ≤ err ∧
    |R.spectrum wi i - S * ((eta / Real.pi) /
      ((omegas.get wi - 2 * t * Real.cos (2 * Real.pi * (i : ℕ) / n)) ^ 2 + eta ^ 2))| ≤ err / Real.pi

end Verif.Spec
