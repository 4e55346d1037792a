import Verif.Spec.HubbardCluster
import Mathlib.LinearAlgebra.Eigenspace.Basic
import Mathlib.LinearAlgebra.Matrix.ToLin
import Mathlib.LinearAlgebra.Matrix.Charpoly.Basic
/-!
# Symmetries of the Hubbard model, in terms of what the script computes

`run t U Nup Ndown` is the result of the script.  Two matrices have the same eigenvalues with the same multiplicities if
their characteristic polynomials agree.
-/

namespace Verif.LDB

open Verif.Latt Verif.Spec Demo

/-- The points can be coloured with two colours such that points at distance `d` have different colours. -/
def TwoColourable {n m : ℕ} (d : ℝ) (points : Fin n → Pt m) : Prop :=
  ∃ colour : Fin n → Bool, ∀ i j, ndist (points i) (points j) = d → colour i ≠ colour j

/-- Without hopping the matrix is diagonal and counts the doubly occupied points. -/
def AtomicLimit (count : ℕ) (run : ℝ → ℝ → ℕ → ℕ → Option (Py Setup)) : Prop :=
  ∀ U Nup Ndown, Nup ≤ count → Ndown ≤ count → ∃ V, run 0 U Nup Ndown = some (.ok V) ∧
    ∀ r c, V.HM r c = if r = c then (U : ℂ) *
      (Finset.univ.filter fun i : Fin count => (i : ℕ) ∈ occ V.basis[r] ∧ count + (i : ℕ) ∈ occ V.basis[r]).card else 0

/-- Exchanging the numbers of up and down particles does not change the spectrum. -/
def SpinExchange (count : ℕ) (run : ℝ → ℝ → ℕ → ℕ → Option (Py Setup)) : Prop :=
  ∀ t U Nup Ndown, Nup ≤ count → Ndown ≤ count → ∃ V V', run t U Nup Ndown = some (.ok V) ∧
    run t U Ndown Nup = some (.ok V') ∧ V.HM.charpoly = V'.HM.charpoly

/-- Turning a spin down (when more spins are up than down) loses no level: the multiplicity of every energy can only grow. -/
def Multiplets (count : ℕ) (run : ℝ → ℝ → ℕ → ℕ → Option (Py Setup)) : Prop :=
  ∀ t U Nup Ndown, Nup ≤ count → Ndown < Nup → ∃ V V', run t U Nup Ndown = some (.ok V) ∧
    run t U (Nup - 1) (Ndown + 1) = some (.ok V') ∧ ∀ E : ℂ,
      Module.finrank ℂ (Module.End.eigenspace (Matrix.toLin' V.HM) E) ≤
        Module.finrank ℂ (Module.End.eigenspace (Matrix.toLin' V'.HM) E)

/-- The sign of the hopping does not matter. -/
def HoppingSign (count : ℕ) (run : ℝ → ℝ → ℕ → ℕ → Option (Py Setup)) : Prop :=
  ∀ t U Nup Ndown, Nup ≤ count → Ndown ≤ count → ∃ V V', run t U Nup Ndown = some (.ok V) ∧
    run (-t) U Nup Ndown = some (.ok V') ∧ V.HM.charpoly = V'.HM.charpoly

/-- Holes instead of particles of spin up: attraction instead of repulsion, and `U` for every particle of spin down. -/
def ParticleHole (count : ℕ) (run : ℝ → ℝ → ℕ → ℕ → Option (Py Setup)) : Prop :=
  ∀ t U Nup Ndown, Nup ≤ count → Ndown ≤ count → ∃ V V', run t U Nup Ndown = some (.ok V) ∧
    run t (-U) (count - Nup) Ndown = some (.ok V') ∧
    V.HM.charpoly = (V'.HM + ((U * Ndown : ℝ) : ℂ) • 1).charpoly

/-- Holes instead of particles of both spins: the energies are shifted by `U (Nup + Ndown - count)`. -/
def FullParticleHole (count : ℕ) (run : ℝ → ℝ → ℕ → ℕ → Option (Py Setup)) : Prop :=
  ∀ t U Nup Ndown, Nup ≤ count → Ndown ≤ count → ∃ V V', run t U Nup Ndown = some (.ok V) ∧
    run t U (count - Nup) (count - Ndown) = some (.ok V') ∧
    V.HM.charpoly = (V'.HM + ((U * (Nup + Ndown - count) : ℝ) : ℂ) • 1).charpoly

/-- What holds on every cluster. -/
def AnyCluster (count : ℕ) (run : ℝ → ℝ → ℕ → ℕ → Option (Py Setup)) : Prop :=
  AtomicLimit count run ∧ SpinExchange count run ∧ Multiplets count run

/-- What holds in addition if the cluster is bipartite. -/
def BipartiteCluster (count : ℕ) (run : ℝ → ℝ → ℕ → ℕ → Option (Py Setup)) : Prop :=
  HoppingSign count run ∧ ParticleHole count run ∧ FullParticleHole count run

end Verif.LDB
