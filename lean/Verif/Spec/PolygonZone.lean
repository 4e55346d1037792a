import Verif.Spec.LatticeDatabase
import Verif.Spec.Geometry
/-!
# Specification: first Brillouin zones as polygons
-/

namespace Verif.LDB

open Verif.Latt

/-- A point of the plane as a pair of coordinates (`Polygon` takes arrays of shape `(n, 2)`). -/
def pair (k : Pt 2) : ℝ × ℝ := (k 0, k 1)

/-- The boundary of the first Brillouin zone: the points of the zone that are as close to another point
of the reciprocal lattice as to the origin. -/
def OnZoneBoundary (B : Fin 2 → Pt 2) (k : Pt 2) : Prop :=
  InFirstBZ B k ∧ ∃ c : Fin 2 → ℤ, c ≠ 0 ∧ ndist k (comb B c) = nnorm k

/-- The closed polygon through the listed points, in the listed order, is the first Brillouin zone: it is
convex, its corners, its boundary and its filled region are those of the zone. -/
def IsZonePolygon (B : Fin 2 → Pt 2) (corners : List (Pt 2)) : Prop :=
  Geo.ConvexPolygon (corners.map pair) ∧ ∀ k : Pt 2,
    (pair k ∈ corners.map pair ↔ IsCorner B k) ∧
    (pair k ∈ Geo.boundary (corners.map pair) ↔ OnZoneBoundary B k) ∧
    (pair k ∈ Geo.region (corners.map pair) ↔ InFirstBZ B k)

end Verif.LDB
