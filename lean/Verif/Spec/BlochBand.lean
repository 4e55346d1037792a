import Mathlib.Analysis.SpecialFunctions.Trigonometric.Basic
import Mathlib.Data.Fin.VecNotation
/-!
# The textbook bands of the honeycomb and kagome lattices

`a` and `b` are the phases a wave gains along the two shortest translations of the lattice.
-/

namespace Verif.LDB

/-- The two bands `± t sqrt(3 + 2 cos a + 2 cos b + 2 cos(a - b))` of graphene. -/
noncomputable def honeycombBand (t a b : ℝ) (j : Fin 2) : ℝ :=
  (![1, -1] : Fin 2 → ℝ) j * (t * Real.sqrt (3 + 2 * Real.cos a + 2 * Real.cos b + 2 * Real.cos (a - b)))

/-- The three bands of the kagome lattice: a flat one at `-2 t`, and
`t (1 ± sqrt(1 + 8 cos(a/2) cos(b/2) cos(a/2 - b/2)))`. -/
noncomputable def kagomeBand (t a b : ℝ) : Fin 3 → ℝ :=
  ![-2 * t, t * (1 + Real.sqrt (1 + 8 * (Real.cos (a / 2) * Real.cos (b / 2) * Real.cos (a / 2 - b / 2)))),
    t * (1 - Real.sqrt (1 + 8 * (Real.cos (a / 2) * Real.cos (b / 2) * Real.cos (a / 2 - b / 2))))]

/-- The phase `2 pi k / n`. -/
noncomputable def phase (k : ℕ) (n : ℝ) : ℝ := 2 * Real.pi * k / n

end Verif.LDB
