import Verif.Model.DemoHeisenberg
/-!
# The body of the Heisenberg scripts, for any cluster

HeisenbergChain1.py and HeisenbergChain2.py build a chain; the lines that build the Hamiltonian work for every lattice.
-/

namespace Verif.Demo

open Latt LDB

/-- HeisenbergChain1.py:33-46 (HeisenbergChain2.py:34-47 alike) with `cluster` any lattice: the bonds, the loop over them
and `HM`.  `heisenbergSetup` is this after `lattice_generator("chain", num0=site_num)` (`heisenbergSetup_eq`). -/
noncomputable def spinClusterSetup {n m k : ℕ} (near : (Fin n → Pt m) → Pt m → Option (Fin n))
    (order : List (Fin k → ℤ) → List (Fin k → ℤ)) (porder : ∀ N : ℕ, List (Fin N × Fin N) → List (Fin N × Fin N))
    (prec : ℕ) (siteNum : ℕ) (L : Lat n m k) (J : ℂ) : Option (Py (SpinSetup siteNum)) :=
  match bonds order porder prec L 1 true false with
  | none => none
  | some (_, .error e) => some (.error e)
  | some (_, .ok (_, none)) => some (raise .typeError)
  | some (L', .ok (intra, some inter)) =>
    andThen (exchangeLoop near prec L' siteNum J (intra ++ inter)) fun Ms => some do
      let HM ← exchangeMatrix siteNum Ms
      return ⟨⟨_, _, _, L'⟩, HM⟩

/-- The scripts are this body applied to a chain. -/
theorem heisenbergSetup_eq (near : ∀ n m : ℕ, (Fin n → Pt m) → Pt m → Option (Fin n))
    (order : ∀ k : ℕ, List (Fin k → ℤ) → List (Fin k → ℤ))
    (porder : ∀ N : ℕ, List (Fin N × Fin N) → List (Fin N × Fin N)) (prec siteNum : ℕ) (J : ℂ) :
    heisenbergSetup near order porder prec siteNum J =
      match latticeGenerator prec "chain" siteNum 1 1 with
      | .error e => some (.error e)
      | .ok cluster => spinClusterSetup (near _ _) (order cluster.k) porder prec siteNum cluster.lat J := by
  unfold heisenbergSetup
  cases latticeGenerator prec "chain" siteNum 1 1 with
  | error e => rfl
  | ok cluster =>
    unfold spinClusterSetup
    dsimp only
    cases bonds (order cluster.k) porder prec cluster.lat 1 true false with
    | none => rfl
    | some x =>
      obtain ⟨L', r⟩ := x
      cases r with
      | error e => rfl
      | ok q =>
        obtain ⟨intra, inter⟩ := q
        cases inter <;> rfl

end Verif.Demo
