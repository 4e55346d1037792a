import Verif.Model.Text
import Mathlib.Analysis.SpecialFunctions.Trigonometric.Basic
/-!
# tools/Octahedron.py

What the script hands to matplotlib: the lines and markers in the order in which they are drawn, the direction of view
and the name of the file.  Coordinates are real numbers (no rounding).  Colours other than `"gray"` and the size of the
markers are not modelled.
-/

namespace Verif.Oct

/-- A point in space (Octahedron.py:19-25). -/
abbrev V3 := Fin 3 → ℝ

/-- An entry of `lines`: the endpoints, whether the line is dashed, its width, and whether it is gray; otherwise
matplotlib chooses the colour.  Used at Octahedron.py:29-51. -/
structure Line where
  p : V3
  q : V3
  dashed : Bool
  width : ℚ
  gray : Bool

/-- `point0` (Octahedron.py:19). -/
def point0 : V3 := ![0, 0, 0]
/-- `point1` (Octahedron.py:20). -/
def point1 : V3 := ![1, -1, 0]
/-- `point2` (Octahedron.py:21). -/
def point2 : V3 := ![1, 1, 0]
/-- `point3` (Octahedron.py:22). -/
def point3 : V3 := ![-1, 1, 0]
/-- `point4` (Octahedron.py:23). -/
def point4 : V3 := ![-1, -1, 0]
/-- `point5` (Octahedron.py:24). -/
noncomputable def point5 : V3 := ![0, 0, Real.sqrt 2]
/-- `point6` (Octahedron.py:25). -/
noncomputable def point6 : V3 := ![0, 0, -Real.sqrt 2]

/-- `line_width` (Octahedron.py:16). -/
def lineWidth : ℚ := 8

/-- `lines` (Octahedron.py:29-51). -/
noncomputable def lines : List Line := [
  ⟨point1, point2, false, lineWidth, false⟩,
  ⟨point2, point3, false, lineWidth, false⟩,
  ⟨point3, point4, true, lineWidth, false⟩,
  ⟨point4, point1, false, lineWidth, false⟩,
  ⟨point0, point1, true, lineWidth / 2, true⟩,
  ⟨point0, point2, true, lineWidth / 2, true⟩,
  ⟨point0, point3, true, lineWidth / 2, true⟩,
  ⟨point0, point4, true, lineWidth / 2, true⟩,
  ⟨point0, point5, true, lineWidth / 2, true⟩,
  ⟨point0, point6, true, lineWidth / 2, true⟩,
  ⟨point5, point1, false, lineWidth, false⟩,
  ⟨point5, point2, false, lineWidth, false⟩,
  ⟨point5, point3, false, lineWidth, false⟩,
  ⟨point5, point4, false, lineWidth, false⟩,
  ⟨point6, point1, false, lineWidth, false⟩,
  ⟨point6, point2, false, lineWidth, false⟩,
  ⟨point6, point3, true, lineWidth, false⟩,
  ⟨point6, point4, true, lineWidth, false⟩]

/-- What `plt.show()` displays and `fig.savefig` saves: the lines, the markers of the centre and of the corners, and the
arguments of `ax.view_init` in degrees.  Used at Octahedron.py:27-80. -/
structure Figure where
  lines : List Line
  centre : List V3
  corners : List V3
  azimuth : ℤ
  elevation : ℤ

/-- The script up to `ax.set_axis_off()` (Octahedron.py:19-75) with the given viewing angles. -/
noncomputable def drawing (azimuth elevation : ℤ) : Figure where
  lines := lines
  centre := [point0]
  corners := [point1, point2, point3, point4, point5, point6]
  azimuth := azimuth
  elevation := elevation

/-- `"Octahedron_azimuth={0}_elevation={1}.png".format(azimuth, elevation)` (Octahedron.py:78). -/
def fileName (azimuth elevation : ℤ) : Txt :=
  "Octahedron_azimuth=".toList ++ decInt azimuth ++ "_elevation=".toList ++ decInt elevation ++ ".png".toList

/-- The script (Octahedron.py:70-79): what is displayed, and the file with the same content. -/
noncomputable def script : Figure × (Txt × Figure) :=
  let azimuth := 0
  let elevation := 20
  (drawing azimuth elevation, (fileName azimuth elevation, drawing azimuth elevation))

end Verif.Oct
