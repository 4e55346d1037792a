import Verif.Model.Octahedron
import Mathlib.Analysis.Convex.Hull
import Mathlib.Topology.Algebra.Module.Basic
/-!
# What a drawing of an octahedron should show

Directions of view are those of an observer far away (parallel projection).
-/

namespace Verif.Oct

/-- The distance of two points. -/
noncomputable def dist3 (p q : V3) : ℝ := Real.sqrt ((p 0 - q 0) ^ 2 + (p 1 - q 1) ^ 2 + (p 2 - q 2) ^ 2)

/-- The line joins `p` and `q`. -/
def Line.Joins (l : Line) (p q : V3) : Prop := (l.p = p ∧ l.q = q) ∨ (l.p = q ∧ l.q = p)

/-- The corners are those of a regular octahedron around the origin: six points at the same distance, the opposite point
of each is one of them and all others are equally far away. -/
def RegularOctahedron (corners : List V3) (radius edge : ℝ) : Prop :=
  corners.length = 6 ∧ corners.Nodup ∧ (∀ p ∈ corners, dist3 p 0 = radius ∧ -p ∈ corners) ∧
    ∀ p ∈ corners, ∀ q ∈ corners, q ≠ p → q ≠ -p → dist3 p q = edge

open Classical in
/-- The lines are the edges and the connections of the centre with the corners, each drawn once; the latter, and only
these, are gray, and half as wide. -/
def DrawsEdges (F : Figure) : Prop :=
  F.centre = [0] ∧
  (∀ l ∈ F.lines, l.p ∈ F.centre ++ F.corners ∧ l.q ∈ F.centre ++ F.corners ∧ l.p ≠ l.q ∧ l.p ≠ -l.q ∧
    (l.gray = true ↔ l.p = 0 ∨ l.q = 0) ∧ l.width = if l.gray then 4 else 8) ∧
  ∀ p ∈ F.centre ++ F.corners, ∀ q ∈ F.centre ++ F.corners, p ≠ q → p ≠ -q →
    (F.lines.filter fun l => l.Joins p q).length = 1

/-- The solid with the given corners. -/
def solid (corners : List V3) : Set V3 := convexHull ℝ {p | p ∈ corners}

/-- The direction of the observer from the origin; the angles are in degrees. -/
noncomputable def viewDirection (azimuth elevation : ℝ) : V3 :=
  let a := azimuth * Real.pi / 180
  let e := elevation * Real.pi / 180
  ![Real.cos e * Real.cos a, Real.cos e * Real.sin a, Real.sin e]

/-- Seen from the direction `d`, part of the solid is in front of the point `x`. -/
def HiddenAt (K : Set V3) (d x : V3) : Prop := ∃ s : ℝ, 0 < s ∧ x + s • d ∈ interior K

/-- Seen from the direction `d`, dashed lines are hidden everywhere and solid lines are hidden nowhere (apart from their
ends). -/
def DashesRight (F : Figure) (d : V3) : Prop :=
  ∀ l ∈ F.lines, ∀ x ∈ openSegment ℝ l.p l.q, l.dashed = true ↔ HiddenAt (solid F.corners) d x

end Verif.Oct
