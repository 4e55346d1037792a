import Mathlib.Analysis.SpecialFunctions.Trigonometric.Basic
import Mathlib.LinearAlgebra.Matrix.Notation
/-!
# Specification: rotation about an axis (Rodrigues' formula)
-/

namespace Verif.Spec

/-- The rotation by the angle `t` about the unit vector `(x, y, z)`, counter-clockwise seen from the tip
of the axis: `cos t * 1 + sin t * [n]_x + (1 - cos t) * n n^T`. -/
noncomputable def rodrigues (x y z t : ℝ) : Matrix (Fin 3) (Fin 3) ℝ :=
  Real.cos t • !![1, 0, 0; 0, 1, 0; 0, 0, 1] +
  Real.sin t • !![0, -z, y; z, 0, -x; -y, x, 0] +
  (1 - Real.cos t) • !![x * x, x * y, x * z; y * x, y * y, y * z; z * x, z * y, z * z]

end Verif.Spec
