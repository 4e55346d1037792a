import Verif.Spec.Fock
import Verif.Spec.FockSpace
import Mathlib.Algebra.BigOperators.Group.Finset.Basic
/-!
# Specification: the tight-binding Hamiltonian on a ring

`n` sites on a ring, `S` spin species; state `s n + i` is site `i` of species `s`.
-/

namespace Verif.Spec

open Finset

/-- `sum_s (c_{s,i}^dagger c_{s,j} + c_{s,j}^dagger c_{s,i})`. -/
noncomputable def hopPair (n S i j : ℕ) : Module.End ℂ Fock :=
  ∑ s ∈ range S, (create (s * n + i) * annihilate (s * n + j) + create (s * n + j) * annihilate (s * n + i))

/-- `H = t sum_s sum_i (c_{s,i}^dagger c_{s,i+1} + h.c.)`, with `i + 1` taken modulo `n`. -/
noncomputable def ringHamiltonian (n S : ℕ) (t : ℝ) : Module.End ℂ Fock :=
  (t : ℂ) • ∑ i ∈ range n, hopPair n S i ((i + 1) % n)

/-- Every subspace with a fixed particle number contains all sites of a species or none of them, and the
subspaces together list the `S n` states. -/
def SpeciesWise (n S : ℕ) (subs : List (List ℕ × HNum)) : Prop :=
  (∀ q < S * n, ∃ p ∈ subs, q ∈ p.1) ∧
  ∀ p ∈ subs, (∃ M, Fixed p M) → ∀ s < S, (∀ i < n, s * n + i ∈ p.1) ∨ ∀ i < n, s * n + i ∉ p.1

end Verif.Spec
