import Mathlib.Analysis.Convex.Hull
import Mathlib.Analysis.Convex.Segment
import Mathlib.Data.Real.Basic
/-!
# Specification: lines and convex polygons in the plane
-/

namespace Verif.Geo

/-- Twice the signed area of the triangle `a b p`; zero iff `p` is on the line through `a` and `b`. -/
def cross (a b p : ℝ × ℝ) : ℝ := (b.1 - a.1) * (p.2 - a.2) - (b.2 - a.2) * (p.1 - a.1)

/-- Distance of `p` to the line through `a` and `b` along the y axis (along the x axis for a vertical
line). -/
noncomputable def lineGap (a b p : ℝ × ℝ) : ℝ :=
  open Classical in if a.1 = b.1 then |p.1 - a.1| else |cross a b p / (b.1 - a.1)|

/-- `(a, b)` is an edge of the closed polygon `vs[0] -> vs[1] -> ... -> vs[0]`. -/
def IsEdge (vs : List (ℝ × ℝ)) (a b : ℝ × ℝ) : Prop :=
  ∃ i, vs[i]? = some a ∧ vs[(i + 1) % vs.length]? = some b

/-- The vertices, in the given order, are the corners of a convex polygon: they are distinct, at least
three, and every edge has all the other vertices strictly on one side (the same for all edges:
`s = 1` counter-clockwise, `s = -1` clockwise). -/
def ConvexPolygon (vs : List (ℝ × ℝ)) : Prop :=
  3 ≤ vs.length ∧ vs.Nodup ∧ ∃ s : ℝ, (s = 1 ∨ s = -1) ∧
    ∀ a b q, IsEdge vs a b → q ∈ vs → q ≠ a → q ≠ b → 0 < s * cross a b q

/-- The filled polygon. -/
def region (vs : List (ℝ × ℝ)) : Set (ℝ × ℝ) := convexHull ℝ {q | q ∈ vs}

/-- The boundary: the union of the edges. -/
def boundary (vs : List (ℝ × ℝ)) : Set (ℝ × ℝ) := {p | ∃ a b, IsEdge vs a b ∧ p ∈ segment ℝ a b}

end Verif.Geo
