import Verif.Spec.LatticeDatabase
/-!
# What the drawings of the first Brillouin zone should show
-/

namespace Verif.BZ

open Verif.Latt

/-- `B` are the reciprocal vectors of `A`. -/
def IsReciprocal (A B : Fin 2 → Pt 2) : Prop :=
  ∀ i j, A i 0 * B j 0 + A i 1 * B j 1 = if i = j then 2 * Real.pi else 0

/-- `x` lies on the segment between the two ends. -/
def OnSegment (l : Pt 2 × Pt 2) (x : Pt 2) : Prop :=
  ∃ t : ℝ, 0 ≤ t ∧ t ≤ 1 ∧ ∀ a, x a = (1 - t) * l.1 a + t * l.2 a

/-- Twice the oriented area of the triangle `p q x`: its sign tells on which side of the line through
`p` and `q` the point `x` lies. -/
def side (l : Pt 2 × Pt 2) (x : Pt 2) : ℝ :=
  (l.2 0 - l.1 0) * (x 1 - l.1 1) - (l.2 1 - l.1 1) * (x 0 - l.1 0)

/-- `x` lies on the line through the two ends, or on the same side of it as the origin. -/
def OriginSide (l : Pt 2 × Pt 2) (x : Pt 2) : Prop := 0 ≤ side l x * side l ![0, 0]

/-- The drawing is the drawing of the first zone of the reciprocal vectors `B`: the region around the
origin enclosed by the drawn lines is the first Brillouin zone. -/
def ShowsZone (lines : List (Pt 2 × Pt 2)) (B : Fin 2 → Pt 2) : Prop :=
  ∀ x, (∀ l ∈ lines, OriginSide l x) ↔ LDB.InFirstBZ B x

/-- On the boundary of the first Brillouin zone: in it, and as close to another point of the reciprocal
lattice as to the origin. -/
def OnBoundary (B : Fin 2 → Pt 2) (x : Pt 2) : Prop :=
  LDB.InFirstBZ B x ∧ ∃ c : Fin 2 → ℤ, c ≠ 0 ∧ ndist x (comb B c) = nnorm x

end Verif.BZ
