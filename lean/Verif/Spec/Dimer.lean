import Verif.Spec.HubbardLimits
/-!
# The Hubbard model of two points

`run t U Nup Ndown` is the result of the script.
-/

namespace Verif.LDB

open Verif.Latt Verif.Spec Demo

/-- The script succeeds and the eigenvalues of its matrix are the numbers in the list, with multiplicities. -/
def HasLevels (run : ℝ → ℝ → ℕ → ℕ → Option (Py Setup)) (t U : ℝ) (Nup Ndown : ℕ) (levels : List ℝ) : Prop :=
  ∃ V, run t U Nup Ndown = some (.ok V) ∧
    V.HM.charpoly = (levels.map fun e : ℝ => Polynomial.X - Polynomial.C (e : ℂ)).prod

/-- The energies of 0 to 4 electrons on two neighbouring points. -/
def DimerEnergies (run : ℝ → ℝ → ℕ → ℕ → Option (Py Setup)) : Prop :=
  ∀ t U : ℝ,
    HasLevels run t U 0 0 [0] ∧
    HasLevels run t U 1 0 [t, -t] ∧ HasLevels run t U 0 1 [t, -t] ∧
    HasLevels run t U 2 0 [0] ∧ HasLevels run t U 0 2 [0] ∧
    HasLevels run t U 1 1 [0, U, (U + Real.sqrt (U ^ 2 + 16 * t ^ 2)) / 2, (U - Real.sqrt (U ^ 2 + 16 * t ^ 2)) / 2] ∧
    HasLevels run t U 2 1 [U + t, U - t] ∧ HasLevels run t U 1 2 [U + t, U - t] ∧
    HasLevels run t U 2 2 [2 * U]

/-- The lowest energy of one electron of each spin. -/
def DimerGround (run : ℝ → ℝ → ℕ → ℕ → Option (Py Setup)) : Prop :=
  ∀ t U : ℝ, ∃ V, run t U 1 1 = some (.ok V) ∧ IsLowest V.HM ((U - Real.sqrt (U ^ 2 + 16 * t ^ 2)) / 2)

end Verif.LDB
