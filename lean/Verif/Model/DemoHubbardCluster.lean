import Verif.Model.DemoHubbard
/-!
# The first part of HubbardChain.py, for any cluster

HubbardChain.py builds a chain; the lines that build the Hamiltonian of the cluster work for every lattice.
-/

namespace Verif.Demo

open Latt LDB

/-- HubbardChain.py:35-46 with `cluster` any lattice: the bonds, the terms, the table.  `hubbardTerms` is this after
`lattice_generator("chain", num0=site_num)` (`hubbardTerms_eq`). -/
noncomputable def hubbardClusterTerms {n m k : ℕ} (order : List (Fin k → ℤ) → List (Fin k → ℤ))
    (porder : ∀ N : ℕ, List (Fin N × Fin N) → List (Fin N × Fin N)) (zoom : ℤ) (coordOf : ℝ → Coord)
    (prec : ℕ) (L : Lat n m k) (t U : ℝ) : Option (Py HubbardTerms) :=
  match bonds order porder prec L 1 true false with
  | none => none
  | some (_, .error e) => some (.error e)
  | some (_, .ok (_, none)) => some (raise .typeError)
  | some (L', .ok (intra, some inter)) => some do
    let terms ← hubbardTermList zoom coordOf L' t U intra
    let table ← stateTable zoom coordOf L' spinPair
    return ⟨⟨_, _, _, L'⟩, inter, terms, table⟩

/-- HubbardChain.py:35-64 with `cluster` any lattice: additionally the basis for `Nup` and `Ndown` particles and the
Hamiltonian on it. -/
noncomputable def hubbardClusterSetup {n m k : ℕ} (order : List (Fin k → ℤ) → List (Fin k → ℤ))
    (porder : ∀ N : ℕ, List (Fin N × Fin N) → List (Fin N × Fin N)) (zoom : ℤ) (coordOf : ℝ → Coord)
    (prec : ℕ) (L : Lat n m k) (t U : ℝ) (Nup Ndown : ℕ) : Option (Py Setup) :=
  andThen (hubbardClusterTerms order porder zoom coordOf prec L t U) fun T =>
    some (hubbardSpace zoom coordOf T.cluster.lat T.table T.terms Nup Ndown)

/-- The script is this applied to a chain. -/
theorem hubbardTerms_eq (order : ∀ k : ℕ, List (Fin k → ℤ) → List (Fin k → ℤ))
    (porder : ∀ N : ℕ, List (Fin N × Fin N) → List (Fin N × Fin N)) (zoom : ℤ) (coordOf : ℝ → Coord)
    (prec : ℕ) (siteNum : ℤ) (t U : ℝ) :
    hubbardTerms order porder zoom coordOf prec siteNum t U =
      match latticeGenerator prec "chain" siteNum 1 1 with
      | .error e => some (.error e)
      | .ok cluster => hubbardClusterTerms (order cluster.k) porder zoom coordOf prec cluster.lat t U := by
  unfold hubbardTerms
  cases latticeGenerator prec "chain" siteNum 1 1 with
  | error e => rfl
  | ok cluster =>
    unfold hubbardClusterTerms
    dsimp only
    cases bonds (order cluster.k) porder prec cluster.lat 1 true false with
    | none => rfl
    | some x =>
      obtain ⟨L', r⟩ := x
      cases r with
      | error e => rfl
      | ok q =>
        obtain ⟨intra, inter⟩ := q
        cases inter <;> rfl

end Verif.Demo
