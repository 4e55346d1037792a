import Mathlib.LinearAlgebra.Matrix.Hermitian
import Mathlib.Analysis.Complex.Basic
/-!
# What a Krylov representation of a matrix is

Independent of lanczos.py: only matrices and spans.
-/

namespace Verif.Lanczos

open Matrix

/-- The columns of `V` are an orthonormal basis, and they belong to the Krylov spaces of `M` and
`v0`: the j-th column is a combination of `v0, M v0, …, M^j v0`. -/
structure IsKrylovBasis {N d : ℕ} (M : Matrix (Fin N) (Fin N) ℂ) (v0 : Fin N → ℂ)
    (V : Matrix (Fin N) (Fin d) ℂ) : Prop where
  orthonormal : Vᴴ * V = 1
  krylov : ∀ j : Fin d, (fun a => V a j) ∈
    Submodule.span ℂ {w | ∃ k ≤ (j : ℕ), w = (M ^ k).mulVec v0}

/-- `T` is a real symmetric tridiagonal matrix. -/
structure IsSymTridiagonal {d : ℕ} (T : Matrix (Fin d) (Fin d) ℝ) : Prop where
  symm : Tᵀ = T
  band : ∀ i j : Fin d, (i : ℕ) + 1 < j ∨ (j : ℕ) + 1 < i → T i j = 0

end Verif.Lanczos
