import Verif.Model.Demo
/-!
# The body of the tight-binding scripts, for any cluster

NNTBChain1.py to NNTBChain4.py build a chain; the lines that follow work for every lattice.
-/

namespace Verif.Demo

open Latt LDB

/-- NNTBChain1.py:25-43 (and the same lines of NNTBChain2.py to NNTBChain4.py) with `cluster` any lattice: terms,
`basis = base_vectors(*specs)`, table, `HM`.  `chainSetup` is this after `lattice_generator("chain", num0=site_num)`
(`chainSetup_eq`). -/
noncomputable def clusterSetup {n m k : ℕ} (order : List (Fin k → ℤ) → List (Fin k → ℤ))
    (porder : ∀ N : ℕ, List (Fin N × Fin N) → List (Fin N × Fin N)) (zoom : ℤ) (coordOf : ℝ → Coord)
    (prec : ℕ) (L : Lat n m k) (spins : List ℤ) (t : ℂ) (specs : List HVal) : Option (Py Setup) :=
  match hoppingTerms order porder zoom coordOf prec L spins t with
  | none => none
  | some (.error e) => some (.error e)
  | some (.ok terms) => some do
    let basis ← baseVectors specs
    let table ← stateTable zoom coordOf L spins
    let HM ← hamiltonian table basis terms
    return ⟨table, basis, HM⟩

/-- The scripts are this body applied to a chain. -/
theorem chainSetup_eq (order : ∀ k : ℕ, List (Fin k → ℤ) → List (Fin k → ℤ))
    (porder : ∀ N : ℕ, List (Fin N × Fin N) → List (Fin N × Fin N)) (zoom : ℤ) (coordOf : ℝ → Coord)
    (prec : ℕ) (siteNum : ℤ) (spins : List ℤ) (t : ℂ) (specs : List HVal) :
    chainSetup order porder zoom coordOf prec siteNum spins t specs =
      match latticeGenerator prec "chain" siteNum 1 1 with
      | .error e => some (.error e)
      | .ok cluster => clusterSetup (order cluster.k) porder zoom coordOf prec cluster.lat spins t specs := rfl

end Verif.Demo
