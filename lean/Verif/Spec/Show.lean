import Verif.Model.Lattice
/-!
# Specification: pictures of lattices and polygons
-/

namespace Verif.Show

/-- Where a point of a one- or two-dimensional lattice is put on the paper. -/
def onPaper {m : ℕ} (p : Fin m → ℝ) : ℝ × ℝ :=
  (if h : 0 < m then p ⟨0, h⟩ else 0, if h : 1 < m then p ⟨1, h⟩ else 0)

/-- The site reached from `p` by `c 0` times the first vector plus `c 1` times the second, etc. -/
def translated {m k : ℕ} (p : Fin m → ℝ) (v : Fin k → Fin m → ℝ) (c : Fin k → ℤ) : Fin m → ℝ :=
  fun a => p a + ∑ j, (c j : ℝ) * v j a

/-- The window `(x, y)` is a square: as wide as high. -/
def IsSquare (x y : ℝ × ℝ) : Prop := x.2 - x.1 = y.2 - y.1

/-- `a` and `b` are consecutive points of the polyline. -/
def Consecutive (path : List (ℝ × ℝ)) (a b : ℝ × ℝ) : Prop :=
  ∃ i, path[i]? = some a ∧ path[i + 1]? = some b

end Verif.Show
