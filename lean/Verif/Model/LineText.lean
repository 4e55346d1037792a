import Verif.Model.Line2D
import Verif.Model.Text
import Mathlib.Data.Real.Archimedean
/-!
# Model of `Line2D.__repr__` and `Line2D.__str__`

line2d.py:96-117.  Coordinates are exact real numbers as in `Model/Line2D`: the quotients are not rounded
before they are printed, and there is no negative zero.
-/

namespace Verif

open Classical

/-- The nearest integer, a tie going to the even one: the rounding of `"{:.4f}".format`.
Used at line2d.py:112-117. -/
noncomputable def nearestEven (x : ℝ) : ℤ :=
  if x - ⌊x⌋ < 1 / 2 then ⌊x⌋
  else if 1 / 2 < x - ⌊x⌋ then ⌊x⌋ + 1
  else if ⌊x⌋ % 2 = 0 then ⌊x⌋ else ⌊x⌋ + 1

/-- `"{:.4f}".format(x)`: the sign, the integer part, a point and four digits of the number of
ten-thousandths nearest to `|x|`.
Used at line2d.py:112-117. -/
noncomputable def fixed4 (x : ℝ) : Txt :=
  let k := (nearestEven (|x| * 10000)).toNat
  (if x < 0 then ['-'] else []) ++ decNat (k / 10000) ++
    ['.', Nat.digitChar (k / 1000 % 10), Nat.digitChar (k / 100 % 10), Nat.digitChar (k / 10 % 10),
      Nat.digitChar (k % 10)]

namespace Line2D

/-- `Line2D.__str__` (line2d.py:105-117). -/
noncomputable def str (l : Line2D) : Txt :=
  if l.isHorizontal then "y = ".toList ++ fixed4 l.p0.2
  else if l.isVertical then "x = ".toList ++ fixed4 l.p0.1
  else "y = ".toList ++ fixed4 (l.dr.2 / l.dr.1) ++ "x + ".toList ++ fixed4 (l.p0.2 - l.p0.1 * l.dr.2 / l.dr.1)

/-- `repr(tuple(p))` for a pair; `ft` is `repr` of a coordinate.
Used at line2d.py:101-103. -/
def pairText (ft : ℝ → Txt) (p : Pt) : Txt := "(".toList ++ ft p.1 ++ ", ".toList ++ ft p.2 ++ ")".toList

/-- `Line2D.__repr__` (line2d.py:96-103). -/
def repr (ft : ℝ → Txt) (l : Line2D) : Txt :=
  "Line2D(p0=".toList ++ pairText ft l.p0 ++ ", p1=".toList ++ pairText ft l.p1 ++ ")".toList

end Line2D

end Verif
