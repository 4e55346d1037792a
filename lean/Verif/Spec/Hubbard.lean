import Verif.Spec.TightBinding
import Mathlib.Analysis.Complex.Exponential
import Mathlib.LinearAlgebra.Matrix.NonsingularInverse
/-!
# Specification: the Hubbard chain and cluster perturbation theory

`n` sites, spin down (0) and up (1); the single-particle state of spin `s` on site `i` is `s n + i`.
-/

namespace Verif.Spec

open Finset

/-- `H = U sum_i n_{i,up} n_{i,down} + t sum_{i < n-1} sum_s (c_{s,i}^dagger c_{s,i+1} + h.c.)`: the open chain. -/
noncomputable def hubbardHamiltonian (n : ℕ) (t U : ℝ) : Module.End ℂ Fock :=
  (U : ℂ) • ∑ i ∈ range n, (create (n + i) * annihilate (n + i)) * (create i * annihilate i) +
    (t : ℂ) • ∑ i ∈ range (n - 1), hopPair n 2 i (i + 1)

/-- The inner product of Fock space, antilinear on the left. -/
noncomputable def fockInner (f g : Fock) : ℂ := f.sum fun S a => star a * g S

/-- The many-particle state with coefficients `v` in a basis of bit patterns. -/
noncomputable def stateOf (B : List ℕ) (v : Fin B.length → ℂ) : Fock := ∑ r, v r • ket (occ B[r])

/-- The number of a single-particle state. -/
def orbital (n : ℕ) (p : Fin 2 × Fin n) : ℕ := p.1 * n + p.2

/-- `G` is the retarded Green function of the cluster at the complex frequency `z` in the eigenstate `psi` of energy `E`:
`G_pq = <psi| c_p (z + E - H)^-1 c_q^dagger |psi> + <psi| c_q^dagger (z - E + H)^-1 c_p |psi>`. -/
def IsClusterGreen (n : ℕ) (H : Module.End ℂ Fock) (E : ℝ) (psi : Fock) (z : ℂ)
    (G : Matrix (Fin 2 × Fin n) (Fin 2 × Fin n) ℂ) : Prop :=
  ∃ x y : Fin 2 × Fin n → Fock,
    (∀ q, z • x q + (E : ℂ) • x q = H (x q) + create (orbital n q) psi) ∧
    (∀ p, z • y p + H (y p) = (E : ℂ) • y p + annihilate (orbital n p) psi) ∧
    ∀ p q, G p q = fockInner (create (orbital n p) psi) (x q) + fockInner (annihilate (orbital n q) psi) (y p)

/-- The hopping between neighbouring clusters, seen at momentum `k`: `t exp(i k n)` from the last site to the first,
and its conjugate. -/
noncomputable def interCluster (n : ℕ) (t k : ℝ) : Matrix (Fin 2 × Fin n) (Fin 2 × Fin n) ℂ := .of fun p q =>
  if p.1 = q.1 then
    (if (p.2 : ℕ) + 1 = n ∧ (q.2 : ℕ) = 0 then (t : ℂ) * Complex.exp (Complex.I * (k * n)) else 0) +
    (if (p.2 : ℕ) = 0 ∧ (q.2 : ℕ) + 1 = n then (t : ℂ) * Complex.exp (-(Complex.I * (k * n))) else 0)
  else 0

/-- Cluster perturbation theory: `(G^-1 - V(k))^-1`, made translation invariant and summed over the spins. -/
noncomputable def cptGreen (n : ℕ) (t k : ℝ) (G : Matrix (Fin 2 × Fin n) (Fin 2 × Fin n) ℂ) : ℂ :=
  (∑ s : Fin 2, ∑ i : Fin n, ∑ j : Fin n, (G⁻¹ - interCluster n t k)⁻¹ (s, i) (s, j) *
    Complex.exp (Complex.I * (k * ((j : ℕ) - (i : ℕ) : ℝ)))) / n

end Verif.Spec
