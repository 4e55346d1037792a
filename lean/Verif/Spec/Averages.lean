import Verif.Model.Averages
import Mathlib.LinearAlgebra.Matrix.DotProduct
import Mathlib.LinearAlgebra.Matrix.ConjTranspose
/-!
# Specification: expectation values
-/

namespace Verif.Spec

/-- The expectation value `<v|M|v> / <v|v>`. -/
noncomputable def expectation {d : ℕ} (M : Matrix (Fin d) (Fin d) ℂ) (v : Fin d → ℂ) : ℂ :=
  dotProduct (star v) (M.mulVec v) / dotProduct (star v) v

end Verif.Spec

namespace Verif

/-- A model state vector as a mathematical vector. -/
def Ket.toVec (k : Ket) (d : ℕ) : Fin d → ℂ := fun i => k.get i

/-- `c * ket`. -/
def Ket.scale (c : ℂ) (k : Ket) : Ket := ⟨k.dim, fun i => c * k.get i⟩

end Verif
