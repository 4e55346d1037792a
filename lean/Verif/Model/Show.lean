import Verif.Model.Lattice
import Verif.Model.Polygon
/-!
# The `show` methods: what they hand to matplotlib

`Lattice.show` (lattice.py:350-400), `Line2D.ShowLine` and `Line2D.ShowLocationRelation`
(line2d.py:164-190, 238-262), `Polygon.ShowPolygon` and `Polygon.ShowLocationRelation`
(polygon.py:98-111, 157-172).  Coordinates are real numbers.  Colours, marker sizes, fonts, and the
calls that only show or close the figure are not modelled.  The limits matplotlib chooses for the axes
(`get_xlim`, `get_ylim`) and the text of a number (`"{:.4f}".format`) are parameters.
-/

namespace Verif.Show

open Verif.Latt

/-! ### Lattice.show -/

/-- What `Lattice.show` has drawn when the figure is complete: one list of markers per plotted cluster,
the limits of the axes and the title.
Used at lattice.py:374-392. -/
structure LatFigure where
  clusters : List (List (ℝ × ℝ))
  xlim : ℝ × ℝ
  ylim : ℝ × ℝ
  title : String

/-- The markers of one cluster: `ax.plot(cluster, ys)` with `ys = 0` in one dimension,
`ax.plot(cluster[:, 0], cluster[:, 1])` otherwise (lattice.py:374-383); with no coordinate at all
`cluster[:, 0]` raises IndexError. -/
def plotCluster {n : ℕ} : {m : ℕ} → (Fin n → Latt.Pt m) → Py (List (ℝ × ℝ))
  | 0, _ => raise .indexError
  | 1, ps => .ok ((List.finRange n).map fun i => (ps i 0, 0))
  | _ + 2, ps => .ok ((List.finRange n).map fun i => (ps i 0, ps i 1))

/-- `clusters` (lattice.py:369-372): `self._points + np.matmul(tmp, self._vectors)` for every
`tmp` of `product(range(-scope, scope+1), repeat=self._trans_dim)`. -/
def clusters {n m k : ℕ} (L : Lat n m k) (scope : ℤ) : List (Fin n → Latt.Pt m) :=
  (mesh (pyRange (-scope) (scope + 1)) k).map fun c => fun i => L.points i + comb L.vectors c

/-- The new limits (lattice.py:385-391): a square around the centre of the old limits. -/
noncomputable def squareLimits (x y : ℝ × ℝ) : (ℝ × ℝ) × (ℝ × ℝ) :=
  let half := max (x.2 - x.1) (y.2 - y.1) / 2
  let xc := (x.2 + x.1) / 2
  let yc := (y.2 + y.1) / 2
  ((xc - half, xc + half), (yc - half, yc + half))

/-- `"{0},scope={1}".format(self.name, scope)` (lattice.py:392). -/
def latTitle (name : String) (scope : ℤ) : String := name ++ ",scope=" ++ toString scope

/-- `Lattice.show(scope, savefig)` (lattice.py:350-400): the figure, if it was completed, and the
outcome.  `lims` are the limits matplotlib has chosen for the plotted markers.  With `savefig=True` line
395 evaluates `Path`, a name that lattice.py neither imports nor defines (lattice.py:14-23): NameError,
before anything is saved. -/
noncomputable def latticeShow {n m k : ℕ}
    (lims : List (List (ℝ × ℝ)) → (ℝ × ℝ) × (ℝ × ℝ)) (L : Lat n m k) (name : String) (scope : ℤ := 0)
    (savefig : Bool := false) : Option LatFigure × Py Unit :=
  if scope < 0 then (none, raise .assertionError)
  else if 3 ≤ m then (none, raise .runtimeError)
  else
    match (clusters L scope).mapM plotCluster with
    | .error e => (none, .error e)
    | .ok marks =>
      let l := lims marks
      let sq := squareLimits l.1 l.2
      let fig : LatFigure := ⟨marks, sq.1, sq.2, latTitle name scope⟩
      if savefig then (some fig, raise .nameError)
      else (some fig, .ok ())

/-! ### Line2D.ShowLine and Line2D.ShowLocationRelation -/

/-- What is drawn: the curve, the marked points and the title.
Used at line2d.py:172-190, 246-262. -/
structure LineFigure where
  curve : List Verif.Pt
  marks : List (String × Verif.Pt)
  title : String

/-- `np.linspace(-1, 2, num=301, endpoint=True)` (line2d.py:172, 246). -/
noncomputable def showRatios : List ℝ := (List.range 301).map fun i : ℕ => -1 + (i : ℝ) / 100

/-- The title (line2d.py:173-178, 247-252); `fmt` is `"{:.4f}".format`. -/
noncomputable def lineTitle (fmt : ℝ → String) (l : Line2D) : String :=
  if l.isHorizontal then "y = " ++ fmt l.p0.2
  else if l.isVertical then "x = " ++ fmt l.p0.1
  else "y = " ++ fmt (l.dr.2 / l.dr.1) ++ "x + " ++ fmt (l.p0.2 - l.p0.1 * l.dr.2 / l.dr.1)

/-- `Line2D.ShowLine` (line2d.py:164-190). -/
noncomputable def showLine (fmt : ℝ → String) (l : Line2D) : LineFigure where
  curve := l.pointsFactory (some showRatios)
  marks := [("$p_0$", l.p0), ("$p_1$", l.p1)]
  title := lineTitle fmt l

/-- `Line2D.ShowLocationRelation(point)` (line2d.py:238-262). -/
noncomputable def showLineLocation (fmt : ℝ → String) (l : Line2D) (point : Verif.Pt) : LineFigure where
  curve := l.pointsFactory (some showRatios)
  marks := [("p", point)]
  title := lineTitle fmt l

/-! ### Polygon.ShowPolygon and Polygon.ShowLocationRelation -/

/-- What is drawn: the polyline, the vertices and, for `ShowLocationRelation`, the point.
Used at polygon.py:104-111, 164-172. -/
structure PolyFigure where
  polyline : List Verif.Pt
  vertices : List Verif.Pt
  point : Option Verif.Pt

/-- `np.concatenate([vertices, vertices[[0]]])` (polygon.py:104, 164); without vertices `vertices[[0]]`
raises IndexError. -/
def closedPath (vertices : List Verif.Pt) : Py (List Verif.Pt) :=
  match vertices with
  | [] => raise .indexError
  | v :: vs => .ok (v :: vs ++ [v])

/-- `Polygon.ShowPolygon` (polygon.py:98-111). -/
def showPolygon (g : Polygon) : Py PolyFigure := do
  let b ← closedPath g.vertices
  return ⟨b, g.vertices, none⟩

/-- `Polygon.ShowLocationRelation(point)` (polygon.py:157-172). -/
def showPolygonLocation (g : Polygon) (point : Verif.Pt) : Py PolyFigure := do
  let b ← closedPath g.vertices
  return ⟨b, g.vertices, some point⟩

end Verif.Show
