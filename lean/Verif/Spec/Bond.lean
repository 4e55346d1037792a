import Verif.Model.Bond
import Mathlib.Analysis.Real.Sqrt
/-!
# The endpoints of a bond as sites
-/

namespace Verif

/-- The coordinates of an array, as Python numbers. -/
def NpVec.coords : NpVec → List Coord
  | .i64 l => l.map .int
  | .f64 l => l.map .flt

/-- Multiplied with `zoom`, the int64 coordinates still are int64 numbers. -/
def NpVec.Fits (zoom : ℤ) : NpVec → Prop
  | .i64 l => ∀ n ∈ l, -2 ^ 63 ≤ zoom * n ∧ zoom * n < 2 ^ 63
  | .f64 _ => True

/-- The array has the coordinates `xs`: as integers up to `2**53`, or as floats; none is larger than `2**400`. -/
def NpVec.Holds (v : NpVec) (xs : List ℚ) : Prop :=
  (∃ l : List ℤ, v = .i64 l ∧ xs = l.map (fun n : ℤ => (n : ℚ)) ∧ ∀ n ∈ l, |n| ≤ 2 ^ 53) ∨
  (v = .f64 (xs.map .fin) ∧ ∀ x ∈ xs, |x| ≤ 2 ^ 400)

/-- `sqrt` returns the square roots of floats with a relative error of at most `2**-53`, as IEEE square roots do. -/
def RoundedSqrt (sqrt : F64 → F64) : Prop :=
  ∀ q : ℚ, 0 ≤ q → ∃ r : ℚ, sqrt (.fin q) = .fin r ∧ |(r : ℝ) - Real.sqrt q| ≤ Real.sqrt q / 2 ^ 53

/-- The Euclidean distance of two points given by their coordinates. -/
noncomputable def distance (xs ys : List ℚ) : ℝ :=
  Real.sqrt ((List.zipWith (fun x y : ℚ => ((x : ℝ) - y) ^ 2) xs ys).sum)

end Verif
