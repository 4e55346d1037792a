import Verif.Spec.LatticeSpin
import Verif.Spec.HubbardLimits
/-!
# The ground state of the antiferromagnet on two sublattices

`H` is the Hamiltonian that a run of the script computes for the exchange constant `J`, `S` the infinite lattice and `d` the
distance of neighbours.
-/

namespace Verif.LDB

open Verif.Latt Verif.Spec Matrix

variable {m : ℕ}

/-- Of two neighbours exactly one is in `T`, and the copies of a site in `T` are in `T`. -/
def TwoSublattices (S : Set (Pt m)) (d : ℝ) {k : ℕ} (v : Fin k → Pt m) (T : Set (Pt m)) : Prop :=
  (∀ x ∈ S, ∀ y ∈ S, ndist x y = d → (x ∈ T ↔ y ∉ T)) ∧ ∀ x c, x ∈ T → x + comb v c ∈ T

open Classical in
/-- The number of spins that are down in the state `a`. -/
noncomputable def downSpins {n : ℕ} (a : Fin (2 ^ n)) : ℕ := {i : Fin n | digit a i = 1}.ncard

/-- For `J > 0` the lowest energy has, up to a factor, one eigenvector `ψ`:
* it has no total spin;
* it contains exactly the states with as many spins up as down, and the sign of its amplitude is given by the number of
  down spins on the sublattice `T`;
* no spin points anywhere on average;
* the correlations of two spins are the same in all directions, positive on the same sublattice, negative otherwise. -/
def AntiferroGround (S : Set (Pt m)) (d : ℝ) {count : ℕ} (L : Lat count m m) (J : ℝ)
    (H : Matrix (Fin (2 ^ count)) (Fin (2 ^ count)) ℂ) : Prop :=
  0 < J → ∃ (T : Set (Pt m)) (E : ℝ) (ψ : Fin (2 ^ count) → ℂ), TwoSublattices S d L.vectors T ∧
    IsLowest H E ∧ ψ ≠ 0 ∧ H.mulVec ψ = (E : ℂ) • ψ ∧ (∀ w, H.mulVec w = (E : ℂ) • w → ∃ z : ℂ, w = z • ψ) ∧
    (∀ a ∈ [SpinOtype.x, .y, .z], (totalSpinOp count a).mulVec ψ = 0) ∧
    (∀ a, ψ a ≠ 0 ↔ 2 * downSpins a = count) ∧
    (∀ a, ∃ x : ℝ, 0 ≤ x ∧ ψ a = (((-1) ^ {i : Fin count | L.points i ∈ T ∧ digit a i = 1}.ncard * x : ℝ) : ℂ)) ∧
    (∀ i < count, ∀ a ∈ [SpinOtype.x, .y, .z], expectation (siteOp count i (spinHalf a)) ψ = 0) ∧
    ∀ i j : Fin count, i ≠ j →
      (∀ a ∈ [SpinOtype.x, .y, .z], expectation (siteOp count i (spinHalf a) * siteOp count j (spinHalf a)) ψ =
        expectation (spinDot count i j) ψ / 3) ∧
      (expectation (spinDot count i j) ψ).im = 0 ∧
      ((L.points i ∈ T ↔ L.points j ∈ T) → 0 < (expectation (spinDot count i j) ψ).re) ∧
      (¬ (L.points i ∈ T ↔ L.points j ∈ T) → (expectation (spinDot count i j) ψ).re < 0)

end Verif.LDB
