import Verif.Spec.SingletGround
/-!
# The lowest levels of the antiferromagnet for every total spin
-/

namespace Verif.LDB

open Verif.Latt Verif.Spec Matrix

variable {m : ℕ}

/-- The square of the total spin. -/
noncomputable def totalSpinSquare (n : ℕ) : Matrix (Fin (2 ^ n)) (Fin (2 ^ n)) ℂ :=
  totalSpinOp n .x * totalSpinOp n .x + totalSpinOp n .y * totalSpinOp n .y + totalSpinOp n .z * totalSpinOp n .z

/-- For `J > 0`, among the states with `s = count/2 - k >= 0` for the component `z` of the total spin there is a lowest energy
`E k`.  It has one eigenvector up to a factor, of total spin `s`, and no state of total spin `s` lies lower, whatever its
component `z`.  These energies rise strictly with `s`, and that for `s = 0` is the lowest of all. -/
def OrderedLevels {count : ℕ} (_ : Lat count m m) (J : ℝ) (H : Matrix (Fin (2 ^ count)) (Fin (2 ^ count)) ℂ) : Prop :=
  0 < J → ∃ (E : ℕ → ℝ) (ψ : ℕ → Fin (2 ^ count) → ℂ),
    (∀ k, 2 * k ≤ count →
      ψ k ≠ 0 ∧ H.mulVec (ψ k) = (E k : ℂ) • ψ k ∧
      (totalSpinOp count .z).mulVec (ψ k) = ((count : ℂ) / 2 - k) • ψ k ∧
      (totalSpinSquare count).mulVec (ψ k) = (((count : ℂ) / 2 - k) * ((count : ℂ) / 2 - k + 1)) • ψ k ∧
      ∀ (z : ℂ) (w : Fin (2 ^ count) → ℂ), w ≠ 0 → (totalSpinOp count .z).mulVec w = ((count : ℂ) / 2 - k) • w →
        H.mulVec w = z • w → z.im = 0 ∧ E k ≤ z.re ∧ (z = E k → ∃ c : ℂ, w = c • ψ k)) ∧
    (∀ k, 2 * k ≤ count → ∀ (z : ℂ) (w : Fin (2 ^ count) → ℂ), w ≠ 0 →
      (totalSpinSquare count).mulVec w = (((count : ℂ) / 2 - k) * ((count : ℂ) / 2 - k + 1)) • w →
      H.mulVec w = z • w → z.im = 0 ∧ E k ≤ z.re) ∧
    (∀ k k', k < k' → 2 * k' ≤ count → E k' < E k) ∧
    ∀ k, 2 * k = count → IsLowest H (E k)

end Verif.LDB
