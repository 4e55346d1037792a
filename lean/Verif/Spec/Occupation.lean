import Verif.Spec.Fock
import Verif.Model.Lanczos
/-!
# Spec: the mean occupation of a single-particle state
-/

namespace Verif.Spec

/-- The mean number of particles in the single-particle state `q` for the many-particle state with
coefficients `v` in the given basis. -/
noncomputable def occupation (basis : List ℕ) (v : Fin basis.length → ℂ) (q : ℕ) : ℝ :=
  ∑ r, if q ∈ occ basis[r] then Complex.normSq (v r) else 0

end Verif.Spec
