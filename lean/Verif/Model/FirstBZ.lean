import Verif.Model.LatticeDatabase
/-!
# lattice/lattice.py: ShowFirstBZ, and tools/BrillouinZone.py

What the two programs hand to matplotlib.  Coordinates are real numbers (no rounding); colours, marker
sizes, and the matplotlib calls that only set the aspect or show the figure are not modelled.
-/

namespace Verif.BZ

open Verif.Latt Verif.LDB

/-- What is drawn: the labelled markers (the label is the coefficient tuple) and the line segments.
Used at tools/BrillouinZone.py:40-75. -/
structure Figure where
  labels : List ((Fin 2 → ℤ) × Pt 2)
  lines : List (Pt 2 × Pt 2)

/-- The segment drawn for `dR` (lattice.py:626-629): `center = dR / 2`,
`orthogonal_vector = np.array([-dR[1], dR[0]])`, `p0, p1 = center ± scale * orthogonal_vector`. -/
noncomputable def segment (scale : ℝ) (dR : Pt 2) : Pt 2 × Pt 2 :=
  (![dR 0 / 2 + scale * -dR 1, dR 1 / 2 + scale * dR 0],
   ![dR 0 / 2 - scale * -dR 1, dR 1 / 2 - scale * dR 0])

/-- The loop of `ShowFirstBZ` (lattice.py:621-630) and of BrillouinZone.py:44-53:
`for coeff in product(range(-1, 2), repeat=2)`. -/
noncomputable def draw (scale : ℝ) (Bs : Fin 2 → Pt 2) : Figure where
  labels := (mesh (pyRange (-1) 2) 2).map fun c => (c, comb Bs c)
  lines := ((mesh (pyRange (-1) 2) 2).filter fun c => c ≠ ![0, 0]).map fun c =>
    segment scale (comb Bs c)

open Classical in
/-- `ShowFirstBZ(As, scale)` (lattice.py:598-633) for a real array `As` of shape `(r, c)` (the
`isinstance` test of line 614 is taken to succeed).  `np.linalg.inv` raises LinAlgError for
a singular matrix. -/
noncomputable def showFirstBZ {r c : ℕ} (As : Fin r → Pt c) (scale : ℝ) : Py Figure :=
  if h : r = 2 ∧ c = 2 then
    let A : Fin 2 → Pt 2 := fun i a => As (Fin.cast h.1.symm i) (Fin.cast h.2.symm a)
    if A 0 0 * A 1 1 - A 0 1 * A 1 0 = 0 then raise .linAlgError
    else .ok (draw scale (bsCalculator A))
  else raise .assertionError

/-! ### tools/BrillouinZone.py -/

/-- `As` (BrillouinZone.py:17). -/
noncomputable def zoneAs : Fin 2 → Pt 2 := ![![1, 0], ![1 / 2, r3 / 2]]

/-- `Bs` (BrillouinZone.py:18-20). -/
noncomputable def zoneBs : Fin 2 → Pt 2 :=
  ![![2 * Real.pi * 1, 2 * Real.pi * (-1 / r3)], ![2 * Real.pi * 0, 2 * Real.pi * (2 / r3)]]

/-- `Ks` (BrillouinZone.py:25-29). -/
noncomputable def zoneKs : List (Pt 2) :=
  ([![-2 / 3, 0], ![-1 / 3, 1 / r3], ![1 / 3, 1 / r3], ![2 / 3, 0], ![1 / 3, -1 / r3],
    ![-1 / 3, -1 / r3]] : List (Pt 2)).map fun p a => 2 * Real.pi * p a

/-- `Ms` (BrillouinZone.py:31-35). -/
noncomputable def zoneMs : List (Pt 2) :=
  ([![-1, 1 / r3], ![0, 2 / r3], ![1, 1 / r3], ![1, -1 / r3], ![0, -2 / r3],
    ![-1, -1 / r3]] : List (Pt 2)).map fun p a => Real.pi * p a

/-- The lines and labels of BrillouinZone.py:44-53: the loop with `scale` 1. -/
noncomputable def zoneFigure : Figure := draw 1 zoneBs

/-- The three groups of marked points: Γ (lines 23, 58-62), M (lines 66-68) and K (lines 72-74).
Used at tools/BrillouinZone.py:23-75. -/
noncomputable def zoneMarks : List (String × Pt 2) :=
  ("Γ", ![0, 0]) :: (zoneMs.map fun p => ("M", p)) ++ (zoneKs.map fun p => ("K", p))

end Verif.BZ
