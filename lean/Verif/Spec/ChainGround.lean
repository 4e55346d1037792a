import Verif.Spec.HubbardLimits
import Verif.Spec.HubbardDensity
/-!
# The ground state of the open Hubbard chain

`run t U Nup Ndown` is the result of the script.
-/

namespace Verif.LDB

open Verif.Latt Verif.Spec Demo

/-- For all particle numbers, hoppings `t ≠ 0` and interactions, the lowest energy is not degenerate; no amplitude of its
eigenvector is zero, and if `t < 0` all are positive, up to a common factor. -/
def UniqueGround (count : ℕ) (run : ℝ → ℝ → ℕ → ℕ → Option (Py Setup)) : Prop :=
  ∀ t U Nup Ndown, t ≠ 0 → Nup ≤ count → Ndown ≤ count → ∃ V, run t U Nup Ndown = some (.ok V) ∧
    ∃ E : ℝ, IsLowest V.HM E ∧ ∃ v : Fin V.basis.length → ℂ, V.HM.mulVec v = (E : ℂ) • v ∧
      (∀ w, V.HM.mulVec w = (E : ℂ) • w → ∃ z : ℂ, w = z • v) ∧ (∀ r, v r ≠ 0) ∧
      (t < 0 → ∀ r, ∃ x : ℝ, 0 < x ∧ v r = x)

/-- In every state of lowest energy, the points `i` and `count - 1 - i` hold equally many particles of each spin, and are
doubly occupied equally often; with `Nup = Ndown` both spins are distributed equally; and with as many particles as points
there is one particle on every point on average. -/
def GroundDistribution (count : ℕ) (run : ℝ → ℝ → ℕ → ℕ → Option (Py Setup)) : Prop :=
  ∀ t U Nup Ndown, t ≠ 0 → Nup ≤ count → Ndown ≤ count → ∃ V, run t U Nup Ndown = some (.ok V) ∧
    ∀ (E : ℝ) (v : Fin V.basis.length → ℂ), IsLowest V.HM E → v ≠ 0 → V.HM.mulVec v = (E : ℂ) • v →
      (∀ s : ℕ, s < 2 → ∀ s' : ℕ, s' < 2 → ∀ i : ℕ, i < count →
        expectation (bothOccupied V (s * count + i) (s' * count + i)) v =
          expectation (bothOccupied V (s * count + (count - 1 - i)) (s' * count + (count - 1 - i))) v) ∧
      (Nup = Ndown → ∀ i : ℕ, i < count →
        expectation (bothOccupied V i i) v = expectation (bothOccupied V (count + i) (count + i)) v) ∧
      (Nup + Ndown = count → ∀ i : ℕ, i < count →
        expectation (bothOccupied V i i + bothOccupied V (count + i) (count + i)) v = 1)

end Verif.LDB
