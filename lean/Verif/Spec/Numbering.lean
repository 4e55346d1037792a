import Verif.Spec.LatticeDatabase
import Verif.Model.LatticeDatabase
/-!
# How `lattice_generator` numbers the points
-/

namespace Verif.LDB

open Verif.Latt

/-- The call returns a lattice of `count` points, and the coordinates of point number `i` (the row `i` of
`Lattice.points`) are `point i`. -/
def Numbers {m : ℕ} (count : ℕ) (point : ℕ → Pt m) (r : Py Built) : Prop :=
  ∃ L : Lat count m m, r = .ok ⟨count, m, m, L⟩ ∧ ∀ i : Fin count, L.points i = point i

/-- The site of the triangular lattice in column `a` of row `b`. -/
noncomputable def triangleSite (a b : ℕ) : Pt 2 := ![(a : ℝ) + (b : ℝ) / 2, (b : ℝ) * (Real.sqrt 3 / 2)]

end Verif.LDB
