import Verif.Py
import Mathlib.Data.Real.Basic
import Mathlib.Tactic.Linarith
/-!
# Model of `HamiltonianPy/line2d.py`

Coordinates and tolerances are exact real numbers (the code uses numpy numbers; rounding is not
modelled).  `__repr__` and `__str__` are in `Model/LineText`, the `Show*` plotting methods in `Model/Show`.
-/

namespace Verif

open Classical

/-- `Location` of line2d.py (line2d.py:18-34). -/
inductive LineLocation
  | on | below | above | left | right
  deriving DecidableEq

/-- A point or displacement with two coordinates.
Used at line2d.py:81-95. -/
abbrev Pt := ℝ × ℝ

/-- `Line2D` instances (line2d.py:91-95). -/
structure Line2D where
  p0 : Pt
  p1 : Pt
  dr : Pt
  isHorizontal : Bool
  isVertical : Bool

/-- The default tolerance `1E-10` (line2d.py:67, 191). -/
noncomputable def defaultTol : ℝ := 1 / 10 ^ 10

namespace Line2D

/-- `Line2D.__init__` (line2d.py:67-95); the shape assertions hold by typing. -/
noncomputable def init (p0 p1 : Pt) (tol : ℝ := defaultTol) : Py Line2D :=
  let dr : Pt := (p1.1 - p0.1, p1.2 - p0.2)
  if |dr.1| ≤ tol ∧ |dr.2| ≤ tol then raise .valueError
  else .ok ⟨p0, p1, dr, decide (|dr.2| ≤ tol), decide (|dr.1| ≤ tol)⟩

/-- One row of `Line2D.PointsFactory(ratios)` (line2d.py:135-162): `p0 + ratio * dr`. -/
noncomputable def pointOf (l : Line2D) (ratio : ℝ) : Pt :=
  (l.p0.1 + ratio * l.dr.1, l.p0.2 + ratio * l.dr.2)

/-- The default ratios `np.linspace(0, 1, num=101, endpoint=True)` (line2d.py:161). -/
noncomputable def defaultRatios : List ℝ := (List.range 101).map fun i : ℕ => (i : ℝ) / 100

/-- `Line2D.PointsFactory` (line2d.py:135-162). -/
noncomputable def pointsFactory (l : Line2D) (ratios : Option (List ℝ) := none) : List Pt :=
  match ratios with
  | none => defaultRatios.map l.pointOf
  | some rs => rs.map l.pointOf

/-- `Line2D.LocationRelation` (line2d.py:191-236). -/
noncomputable def locationRelation (l : Line2D) (p : Pt) (tol : ℝ := defaultTol) : LineLocation :=
  if l.isHorizontal then
    if |p.2 - l.p0.2| ≤ tol then .on
    else if p.2 < l.p0.2 then .below
    else .above
  else if l.isVertical then
    if |p.1 - l.p0.1| ≤ tol then .on
    else if p.1 < l.p0.1 then .left
    else .right
  else
    let yOn := (l.dr.2 / l.dr.1) * (p.1 - l.p0.1) + l.p0.2
    if |p.2 - yOn| ≤ tol then .on
    else if p.2 < yOn then .below
    else .above

/-- The `which` argument of `Coordinate`: "x", "y" or anything else.
Used at line2d.py:283-304. -/
inductive Which
  | x | y | other
  deriving DecidableEq

/-- `Line2D.Coordinate` (line2d.py:266-310). -/
noncomputable def coordinate (l : Line2D) (known : ℝ) (which : Which := .x) : Py Pt := do
  pyAssert (decide (which = .x ∨ which = .y))
  if l.isHorizontal then
    if which = .x then return (known, l.p0.2)
    else raise .runtimeError
  else if l.isVertical then
    if which = .y then return (l.p0.1, known)
    else raise .runtimeError
  else
    if which = .x then return (known, (l.dr.2 / l.dr.1) * (known - l.p0.1) + l.p0.2)
    else return ((l.dr.1 / l.dr.2) * (known - l.p0.2) + l.p0.1, known)

end Line2D

end Verif
