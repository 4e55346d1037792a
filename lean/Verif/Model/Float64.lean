import Verif.Py
import Mathlib.Data.Rat.Floor
import Mathlib.Data.Int.Log
import Mathlib.Algebra.Order.Field.Rat
/-!
# IEEE-754 binary64 values and round-to-nearest-even

Python's `float` (and numpy's `float64`).  A finite double is represented by its exact rational
value; signed zeros are identified.  This file is not a translation of repository code, it is the
arithmetic that `int(_ZOOM * coord)` (quantumstate.py:107, bond.py:88-89) and `factorial(n) /
factorial(n-k)` (tools/PandC.py:37-74) use.
-/

namespace Verif

/-- A Python `float`.
For the coordinates at quantumstate.py:107. -/
inductive F64
  | fin (q : ℚ)
  | inf (neg : Bool)
  | nan
  deriving DecidableEq

/-- Round a rational to the nearest integer, ties to even.
For the float operations at quantumstate.py:107, PandC.py:43, 72-74. -/
def roundHalfEven (q : ℚ) : ℤ :=
  let f := ⌊q⌋
  if q - f < 1 / 2 then f
  else if 1 / 2 < q - f then f + 1
  else if f % 2 = 0 then f else f + 1

/-- Exponent of the unit in the last place of the binade of `q` (53-bit significand, subnormals
below `2^-1022`).
For the float operations at quantumstate.py:107, PandC.py:43, 72-74. -/
def ulpExp (q : ℚ) : ℤ := max (Int.log 2 |q| - 52) (-1074)

/-- `q` rounded to the grid of multiples of its unit in the last place (no overflow).
For the float operations at quantumstate.py:107, PandC.py:43, 72-74. -/
def flRat (q : ℚ) : ℚ := roundHalfEven (q / 2 ^ ulpExp q) * 2 ^ ulpExp q

/-- The double nearest to `q` (round to nearest, ties to even), with overflow to infinity.
For the float operations at quantumstate.py:107, PandC.py:43, 72-74. -/
def fl (q : ℚ) : F64 :=
  if 2 ^ (1024 : ℕ) ≤ |flRat q| then .inf (decide (q < 0)) else .fin (flRat q)

/-- `q` is the exact value of a finite double.
For the float operations at quantumstate.py:107, PandC.py:43, 72-74. -/
def IsDouble (q : ℚ) : Prop := flRat q = q ∧ |q| < 2 ^ (1024 : ℕ)

/-- `float(n)` for a Python int (`PyLong_AsDouble`): OverflowError if it does not fit.
For the conversion of the int `_ZOOM` at quantumstate.py:107. -/
def intToFloat (n : ℤ) : Py ℚ :=
  match fl n with
  | .fin q => .ok q
  | _ => raise .overflowError

/-- `x * y` on doubles.
Used at quantumstate.py:107. -/
def fmul : F64 → F64 → F64
  | .nan, _ => .nan
  | _, .nan => .nan
  | .inf s, .inf t => .inf (s != t)
  | .inf s, .fin q => if q = 0 then .nan else .inf (s != decide (q < 0))
  | .fin q, .inf s => if q = 0 then .nan else .inf (s != decide (q < 0))
  | .fin a, .fin b => fl (a * b)

/-- Truncation toward zero.
Used at quantumstate.py:107, PandC.py:43, 72-74. -/
def truncRat (q : ℚ) : ℤ := if 0 ≤ q then ⌊q⌋ else ⌈q⌉

/-- `int(x)` for a Python float.
Used at quantumstate.py:107, PandC.py:43, 72-74. -/
def floatToInt : F64 → Py ℤ
  | .fin q => .ok (truncRat q)
  | .inf _ => raise .overflowError
  | .nan => raise .valueError

end Verif
