import Verif.Model.Line2D
import Mathlib.Analysis.SpecialFunctions.Sqrt
/-!
# Model of `HamiltonianPy/polygon.py`

Exact real coordinates; plotting is not modelled.
-/

namespace Verif

open Classical

/-- `Location` of polygon.py (polygon.py:20-33). -/
inductive PolyLocation
  | corner | boundary | inside | outside
  deriving DecidableEq

/-- Euclidean distance, as computed by `pdist` and `np.linalg.norm(.., axis=-1)`
(polygon.py:73, 130). -/
noncomputable def euclid (p q : Pt) : ℝ := Real.sqrt ((p.1 - q.1) ^ 2 + (p.2 - q.2) ^ 2)

/-- `Polygon` instances: `_vertices` (`_vertices_num` is its length) (polygon.py:78-79). -/
structure Polygon where
  vertices : List Pt

namespace Polygon

/-- `np.any(pdist(vertices) <= tol)` (polygon.py:73): some pair `i < j` is within `tol`. -/
def hasClosePair (tol : ℝ) : List Pt → Prop
  | [] => False
  | p :: ps => (∃ q ∈ ps, euclid p q ≤ tol) ∨ hasClosePair tol ps

/-- `Polygon.__init__` (polygon.py:48-79). -/
noncomputable def init (vertices : List Pt) (tol : ℝ := defaultTol) : Py Polygon :=
  if vertices.length < 3 then raise .assertionError
  else if hasClosePair tol vertices then raise .valueError
  else .ok ⟨vertices⟩

/-- The loop `for i in range(num)` of `LocationRelation` (polygon.py:136-151), run on the remaining
edges `(vertices[i], vertices[(i + 1) % num])`. -/
noncomputable def edgeLoop (point refPoint : Pt) (tol : ℝ) : List (Pt × Pt) → Py PolyLocation
  | [] => .ok .inside
  | (p0, p1) :: rest => do
    let line ← Line2D.init p0 p1 tol
    let location0 := line.locationRelation point tol
    let location1 := line.locationRelation refPoint tol
    if location0 = .on then
      if min p0.1 p1.1 ≤ point.1 ∧ point.1 ≤ max p0.1 p1.1 then return .boundary
      else return .outside
    else if location0 ≠ location1 then return .outside
    else edgeLoop point refPoint tol rest

/-- The edges in loop order: `(vertices[i], vertices[(i + 1) % num])` for `i` in `range(num)`.
Used at polygon.py:138-142. -/
def edges (vertices : List Pt) : List (Pt × Pt) :=
  vertices.zip (vertices.rotate 1)

/-- `Polygon.LocationRelation` (polygon.py:108-152). -/
noncomputable def locationRelation (g : Polygon) (point refPoint : Pt) (tol : ℝ := defaultTol) :
    Py PolyLocation :=
  if ∃ v ∈ g.vertices, euclid v point ≤ tol then .ok .corner
  else edgeLoop point refPoint tol (edges g.vertices)

end Polygon

end Verif
