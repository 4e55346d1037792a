import Verif.Py
import Verif.Model.Float64
import Mathlib.Analysis.Real.Sqrt
import Mathlib.Algebra.Order.Floor.Ring
/-!
# `KPath` of lattice/lattice.py

Coordinates are real numbers; the number of samples per segment is computed by a function that is
a parameter (`count`), because the expression `int(min_num * length / min_length)` behaves
differently in exact and in double arithmetic: `countExact` and `countFloat` are the two instances.
-/

namespace Verif.KP

/-- A k-point with `m` coordinates.
Used at lattice/lattice.py:571-595. -/
abbrev KPoint (m : ℕ) := Fin m → ℝ

/-- `np.linalg.norm(dR, axis=-1)`.
Used at lattice/lattice.py:579. -/
noncomputable def len {m : ℕ} (v : KPoint m) : ℝ := Real.sqrt (∑ i, v i ^ 2)

/-- `int(min_num * length / min_length)` (lattice.py:581) in exact arithmetic; the value is not
negative, so `int` rounds down. -/
noncomputable def countExact (minNum : ℤ) (length minLength : ℝ) : ℕ :=
  ⌊minNum * length / minLength⌋.toNat

/-- `int(min_num * length / min_length)` (lattice.py:581) in double arithmetic (finite, not
overflowing values). -/
def countFloat (minNum : ℤ) (length minLength : ℚ) : ℤ :=
  truncRat (flRat (flRat (minNum * length) / minLength))

/-- `np.min` of a nonempty array.
Used at lattice/lattice.py:581. -/
noncomputable def listMin : List ℝ → ℝ
  | [] => 0
  | [x] => x
  | x :: xs => min x (listMin xs)

/-- `np.linspace(0, 1, num=num, endpoint=False)[:, np.newaxis] * dR + start` (lattice.py:583). -/
noncomputable def segment {m : ℕ} (num : ℕ) (dR start : KPoint m) : List (KPoint m) :=
  (List.range num).map fun (q : ℕ) => fun c => (q : ℝ) / num * dR c + start c

/-- `np.cumsum(nums)` added to a start value.
Used at lattice/lattice.py:593. -/
def cumsum (s : ℕ) : List ℕ → List ℕ
  | [] => []
  | x :: xs => (s + x) :: cumsum (s + x) xs

/-- `KPath(points, min_num, loop)` (lattice.py:534-592): the k-points and the indices (the flag
`return_indices` only drops the second).  Simplification: all points have the same number `m` of
coordinates. -/
noncomputable def kpath (count : ℤ → ℝ → ℝ → ℕ) {m : ℕ} (points : List (KPoint m)) (minNum : ℤ)
    (loop : Bool) : Py (List (KPoint m) × List ℕ) := do
  pyAssert (decide (1 ≤ minNum))
  pyAssert (decide (1 < points.length))
  pyAssert (decide (m = 2 ∨ m = 3))
  let pts := points ++ points
  let e := if loop then points.length + 1 else points.length
  let dRs := List.zipWith (fun a b : KPoint m => a - b) ((pts.take e).drop 1) (pts.take (e - 1))
  let lengths := dRs.map len
  let minLength := listMin lengths
  if minLength < 1 / 10000 then raise .valueError
  let nums := lengths.map fun l => count minNum l minLength
  let segs := (nums.zip (dRs.zip pts)).map fun p => segment p.1 p.2.1 p.2.2
  let last ← match pts[e - 1]? with
    | some p => .ok p
    | none => raise .indexError
  pure (segs.flatten ++ [last], 0 :: cumsum 0 nums)

end Verif.KP
