import Verif.Spec.HubbardSymmetry
import Verif.Spec.Averages
import Mathlib.LinearAlgebra.Matrix.Hermitian
/-!
# How the electrons are distributed over the points

`run t U Nup Ndown` is the result of the script; the single-particle state of spin `s` on point `i` is `s count + i`.
-/

namespace Verif.LDB

open Verif.Latt Verif.Spec Demo

/-- The diagonal matrix that is 1 on the basis states in which `p` and `q` are occupied.  `p = q`: the number of particles
in `p`; `p` and `q` the two spins on a point: its double occupancy. -/
noncomputable def bothOccupied (V : Setup) (p q : ℕ) : Matrix (Fin V.basis.length) (Fin V.basis.length) ℂ :=
  Matrix.diagonal fun r => if p ∈ occ V.basis[r] ∧ q ∈ occ V.basis[r] then 1 else 0

/-- An eigenvector of a non-degenerate energy. -/
def SimpleState {N : ℕ} (M : Matrix (Fin N) (Fin N) ℂ) (v : Fin N → ℂ) : Prop :=
  v ≠ 0 ∧ ∃ E : ℂ, M.mulVec v = E • v ∧ ∀ w, M.mulVec w = E • w → ∃ z : ℂ, w = z • v

/-- `A` and `B` have the same expectation values in all non-degenerate eigenstates of the Hamiltonian `M`, and the same
trace with every power of `M` (hence with every function of it, such as the Boltzmann weight). -/
def SameAverages {N : ℕ} (M A B : Matrix (Fin N) (Fin N) ℂ) : Prop :=
  (∀ v, SimpleState M v → expectation A v = expectation B v) ∧ ∀ k : ℕ, (M ^ k * A).trace = (M ^ k * B).trace

/-- Permutations of the points that keep neighbours neighbours do not change the averages. -/
def PointSymmetric {m count : ℕ} (d : ℝ) (points : Fin count → Pt m)
    (run : ℝ → ℝ → ℕ → ℕ → Option (Py Setup)) : Prop :=
  ∀ t U Nup Ndown, Nup ≤ count → Ndown ≤ count → ∃ V, run t U Nup Ndown = some (.ok V) ∧
    ∀ π : Equiv.Perm (Fin count), (∀ i j, ndist (points (π i)) (points (π j)) = d ↔ ndist (points i) (points j) = d) →
    ∀ s : ℕ, s < 2 → ∀ s' : ℕ, s' < 2 → ∀ i j : Fin count,
      SameAverages V.HM (bothOccupied V (s * count + i) (s' * count + j))
        (bothOccupied V (s * count + π i) (s' * count + π j))

/-- With equal numbers of up and down particles, the two spins are distributed equally. -/
def SpinBalanced (count : ℕ) (run : ℝ → ℝ → ℕ → ℕ → Option (Py Setup)) : Prop :=
  ∀ t U N, N ≤ count → ∃ V, run t U N N = some (.ok V) ∧
    ∀ s : ℕ, s < 2 → ∀ s' : ℕ, s' < 2 → ∀ i j : Fin count,
      SameAverages V.HM (bothOccupied V (s * count + i) (s' * count + j))
        (bothOccupied V ((1 - s) * count + i) ((1 - s') * count + j))

/-- With as many particles as points, there is one particle on every point on average. -/
def UniformDensity (count : ℕ) (run : ℝ → ℝ → ℕ → ℕ → Option (Py Setup)) : Prop :=
  ∀ t U Nup Ndown, Nup + Ndown = count → ∃ V, run t U Nup Ndown = some (.ok V) ∧ ∀ i : Fin count,
    SameAverages V.HM (bothOccupied V i i + bothOccupied V (count + i) (count + i)) 1

/-- What holds on every cluster. -/
def EvenlyFilled {m count : ℕ} (d : ℝ) (points : Fin count → Pt m) (run : ℝ → ℝ → ℕ → ℕ → Option (Py Setup)) : Prop :=
  PointSymmetric d points run ∧ SpinBalanced count run

end Verif.LDB
