import Verif.Model.Lattice
/-!
# Specification of the bonds of a chain

The sites of a chain of `n` sites are the points `0, 1, ..., n - 1` of the line, repeated with period
`n`.
-/

namespace Verif.LDB

open Verif.Latt

/-- The forward bond `a -> a + nth` of a chain of `n` sites. -/
def forward (nth a : ℕ) : Pt 1 × Pt 1 := (![(a : ℝ)], ![(a : ℝ) + nth])

/-- The same bond seen from the copy of its other end that lies in the cluster. -/
def backward (n nth a : ℕ) : Pt 1 × Pt 1 :=
  (![(((a + nth) % n : ℕ) : ℝ)], ![(((a + nth) % n : ℕ) : ℝ) - nth])

/-- The forward bond with its far end moved back into the cluster. -/
noncomputable def forwardFolded (n nth a : ℕ) : Pt 1 × Pt 1 :=
  (![(a : ℝ)], ![(((a + nth) % n : ℕ) : ℝ)])

/-- The same, listed from the other end. -/
noncomputable def backwardFolded (n nth a : ℕ) : Pt 1 × Pt 1 :=
  (![(((a + nth) % n : ℕ) : ℝ)], ![(a : ℝ)])

end Verif.LDB
