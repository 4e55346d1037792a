import Mathlib.LinearAlgebra.Finsupp.LSum
import Mathlib.LinearAlgebra.Finsupp.LinearCombination
import Mathlib.Data.Complex.Basic
import Mathlib.Algebra.Module.LinearMap.End
/-!
# Specification: fermionic Fock space

The vector space freely spanned by the finite sets of occupied single-particle states, and the
creation/annihilation operators with the Jordan-Wigner sign.  Nothing here mentions the model.
-/

namespace Verif.Spec

/-- Fock space over single-particle states `0, 1, 2, ...`: formal combinations of occupation sets. -/
abbrev Fock := Finset ℕ →₀ ℂ

/-- The basis vector with exactly the states of `S` occupied. -/
noncomputable def ket (S : Finset ℕ) : Fock := Finsupp.single S 1

/-- `(-1)^{number of occupied states below i}`. -/
def jwSign (i : ℕ) (S : Finset ℕ) : ℂ := (-1) ^ (S.filter (· < i)).card

/-- Creation operator: `c_i^dagger |S> = (-1)^{#(S below i)} |S + i>` if `i` is empty, else 0. -/
noncomputable def create (i : ℕ) : Module.End ℂ Fock :=
  Finsupp.linearCombination ℂ (fun S => if i ∈ S then 0 else jwSign i S • ket (insert i S))

/-- Annihilation operator: `c_i |S> = (-1)^{#(S below i)} |S - i>` if `i` is occupied, else 0. -/
noncomputable def annihilate (i : ℕ) : Module.End ℂ Fock :=
  Finsupp.linearCombination ℂ (fun S => if i ∈ S then jwSign i S • ket (S.erase i) else 0)

/-- The occupation set of a bit pattern. -/
def occ (k : ℕ) : Finset ℕ := (Finset.range k).filter (fun i => k.testBit i)

/-- `<S| O |T>`. -/
noncomputable def matrixElement (O : Module.End ℂ Fock) (S T : Finset ℕ) : ℂ := O (ket T) S

end Verif.Spec
