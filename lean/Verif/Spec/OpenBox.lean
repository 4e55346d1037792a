import Verif.Spec.HubbardLimits
/-!
# Free electrons on a chain, a rectangle or a block with open ends
-/

namespace Verif.LDB

open Verif.Latt Verif.Spec Demo

/-- The energies of one electron on an open chain of `n` points with hopping `t`: `2 t cos (π k / (n + 1))` with
`k = 1, …, n`. -/
noncomputable def chainLevel (n : ℕ) (t : ℝ) (k : Fin n) : ℝ := 2 * t * Real.cos (Real.pi * ((k : ℝ) + 1) / ((n : ℝ) + 1))

/-- Without interaction the energies found by the script are, with multiplicities, all sums of `Nup` different and `Ndown`
different levels out of the list `level t`. -/
def FreeLevels {κ : Type} [Fintype κ] (count : ℕ) (level : ℝ → κ → ℝ) (run : ℝ → ℝ → ℕ → ℕ → Option (Py Setup)) : Prop :=
  ∀ t Nup Ndown, Nup ≤ count → Ndown ≤ count → ∃ V, run t 0 Nup Ndown = some (.ok V) ∧
    V.HM.charpoly = ∏ A ∈ Finset.powersetCard Nup (Finset.univ : Finset κ),
      ∏ D ∈ Finset.powersetCard Ndown (Finset.univ : Finset κ),
        (Polynomial.X - Polynomial.C ((∑ k ∈ A, level t k + ∑ k ∈ D, level t k : ℝ) : ℂ))

end Verif.LDB
