import Verif.Model.QuantumState
import Mathlib.Analysis.SpecialFunctions.Complex.Arg
/-!
# Model of `HamiltonianPy/bond.py`

Endpoints are numpy arrays of dtype `int64` or `float64`; int64 arithmetic wraps and float64
arithmetic rounds, as in numpy.  `directional` is a bool.  `ndigits` is in Model/BondRound.
The angles of `getAzimuth` are modelled over the real numbers (`exactAzimuth*` below).
-/

namespace Verif

/-- int64 wrap-around.
Used at bond.py:154, 182. -/
def wrap64 (z : ℤ) : ℤ := z.bmod (2 ^ 64)

/-- A one-dimensional numpy array of dtype int64 or float64.
Used at bond.py:102-109. -/
inductive NpVec
  | i64 (l : List ℤ)
  | f64 (l : List F64)
  deriving DecidableEq

namespace NpVec

/-- `a.shape[0]`.
Used at bond.py:107-113. -/
def len : NpVec → ℕ
  | i64 l => l.length
  | f64 l => l.length

/-- `-x` on doubles.
Used at bond.py:154, 182, 310-327. -/
def _root_.Verif.fneg : F64 → F64
  | .nan => .nan
  | .inf s => .inf (!s)
  | .fin q => .fin (-q)

/-- `x + y` on doubles.
Used at bond.py:154, 182. -/
def _root_.Verif.fadd : F64 → F64 → F64
  | .nan, _ => .nan
  | _, .nan => .nan
  | .inf s, .inf t => if s = t then .inf s else .nan
  | .inf s, .fin _ => .inf s
  | .fin _, .inf s => .inf s
  | .fin a, .fin b => fl (a + b)

/-- `x - y` on doubles.
Used at bond.py:154, 182. -/
def _root_.Verif.fsub (x y : F64) : F64 := fadd x (fneg y)

/-- `a.astype(float64)`.
Used at bond.py:154, 182. -/
def toF64 : NpVec → List F64
  | i64 l => l.map (fun n : ℤ => fl n)
  | f64 l => l

/-- `a - b` (shapes agree): int64 arithmetic when both are int64, otherwise float64.
Used at bond.py:154, 182. -/
def sub : NpVec → NpVec → NpVec
  | i64 a, i64 b => i64 (List.zipWith (fun x y => wrap64 (x - y)) a b)
  | a, b => f64 (List.zipWith fsub a.toF64 b.toF64)

/-- `-a`.
Used at bond.py:310-327. -/
def neg : NpVec → NpVec
  | i64 a => i64 (a.map fun x => wrap64 (-x))
  | f64 a => f64 (a.map fneg)

/-- `tuple(int(_ZOOM * coord) for coord in p)` (bond.py:115).  An int64 coordinate is multiplied in
int64 (`_ZOOM` itself is assumed to fit in int64). -/
def zoomTuple (zoom : ℤ) : NpVec → Py (List ℤ)
  | i64 l => .ok (l.map fun n => wrap64 (zoom * n))
  | f64 l => l.mapM (fun x => Coord.zoomInt zoom (.flt x))

/-- `np.linalg.norm(a)`: the square root of the sum of squares in float64; `sqrt` is the rounding
square root on doubles.
Used at bond.py:154. -/
def norm (sqrt : F64 → F64) (a : NpVec) : F64 :=
  sqrt ((a.toF64.map fun x => fmul x x).foldl fadd (.fin 0))

end NpVec

/-- The objects whose comparison `_tuple_form` decides: `(tuple, tuple, directional)`
(bond.py:115-119). -/
abbrev BondKey := List ℤ × List ℤ × Bool

/-- `Bond` instances (bond.py:107-119). -/
structure Bond where
  p0 : NpVec
  p1 : NpVec
  directional : Bool
  tupleForm : BondKey
  deriving DecidableEq

namespace Bond

/-- `Bond.__init__` (bond.py:85-119).  `identity.sort()` of a two-element list swaps iff the second
is smaller. -/
def init (zoom : ℤ) (p0 p1 : NpVec) (directional : Bool := true) : Py Bond := do
  pyAssert (decide (p0.len = 1 ∨ p0.len = 2 ∨ p0.len = 3))
  pyAssert (decide (p1.len = p0.len))
  let t0 ← p0.zoomTuple zoom
  let t1 ← p1.zoomTuple zoom
  let (i0, i1) := if !directional && tupleRich .lt t1 t0 then (t1, t0) else (t0, t1)
  return ⟨p0, p1, directional, (i0, i1, directional)⟩

/-- `Bond.__hash__` hashes this tuple (bond.py:246-251). -/
def hashKey (b : Bond) : BondKey := b.tupleForm

/-- `Bond.__eq__` with a Bond (bond.py:253-261). -/
def eq (a b : Bond) : Bool := decide (a.tupleForm = b.tupleForm)

/-- `Bond.__ne__` with a Bond (bond.py:263-271). -/
def ne (a b : Bond) : Bool := decide (a.tupleForm ≠ b.tupleForm)

/-- `Bond.getLength()` (bond.py:137-155). -/
def getLength (sqrt : F64 → F64) (b : Bond) : F64 := (b.p0.sub b.p1).norm sqrt

/-- `Bond.getDisplace()` (bond.py:157-187). -/
def getDisplace (b : Bond) : Py NpVec :=
  if b.directional then .ok (b.p1.sub b.p0) else raise .notImplementedError

/-- `Bond.flip` (bond.py:310-327). -/
def flip (zoom : ℤ) (b : Bond) : Py Bond :=
  if b.directional then Bond.init zoom b.p1 b.p0 true else raise .notImplementedError

/-- The argument of `oppositeTo`: a Bond or another object.
Used at bond.py:329-342. -/
inductive Arg
  | bond (b : Bond)
  | other

/-- `Bond.oppositeTo` (bond.py:329-351). -/
def oppositeTo (zoom : ℤ) (a : Bond) : Arg → Py Bool
  | .bond b => if a.directional then do
      let f ← a.flip zoom
      return f.eq b
    else raise .notImplementedError
  | .other => if a.directional then raise .typeError else raise .notImplementedError

/-- `a < b`, `a <= b`, `a > b`, `a >= b` between two Bonds: both reflected methods return
`NotImplemented` (bond.py:273-283), so Python raises TypeError. -/
def order (_a _b : Bond) : Py Bool := raise .typeError

end Bond

/-- Real-arithmetic angles of `getAzimuth` in radians (bond.py:222-244). -/
inductive Azimuth
  | angle (theta : ℝ)
  | angles (alpha beta : ℝ)

/-- `np.arctan2(y, x)` over the reals.
Used at bond.py:232-236. -/
noncomputable def arctan2 (y x : ℝ) : ℝ := Complex.arg ⟨x, y⟩

/-- `Bond.getAzimuth(radian)` for a displacement `dr = p1 - p0` with exact real components
(bond.py:189-244). -/
noncomputable def exactAzimuth (directional : Bool) (radian : Bool) (dr : List ℝ) : Py Azimuth :=
  if directional then
    let coeff : ℝ := if radian then 1 else 180 / Real.pi
    match dr with
    | [x] => .ok (.angle (coeff * (if 0 ≤ x then 0 else -Real.pi)))
    | [x, y] => .ok (.angle (coeff * arctan2 y x))
    | [x, y, z] => .ok (.angles (coeff * arctan2 (Real.sqrt (x ^ 2 + y ^ 2)) z) (coeff * arctan2 y x))
    | _ => raise .valueError
  else raise .notImplementedError

end Verif
