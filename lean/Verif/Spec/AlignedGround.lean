import Verif.Spec.SingletGround
/-!
# The ground states of the ferromagnet

`H` is the Hamiltonian that a run of the script computes for the exchange constant `J`; `z` is the number of neighbours.
-/

namespace Verif.LDB

open Verif.Latt Verif.Spec Matrix

variable {m : ℕ}

/-- For `J < 0` the lowest energy is `J z count / 8`.  Its states are those in which every two spins are parallel, and those
whose amplitudes depend only on how many spins are down. -/
def AlignedGround (z : ℕ) {count : ℕ} (_ : Lat count m m) (J : ℝ) (H : Matrix (Fin (2 ^ count)) (Fin (2 ^ count)) ℂ) : Prop :=
  J < 0 → IsLowest H (J * z * count / 8) ∧ ∀ w : Fin (2 ^ count) → ℂ,
    (H.mulVec w = ((J * z * count / 8 : ℝ) : ℂ) • w ↔
      ∀ i j : Fin count, i ≠ j → (spinDot count i j).mulVec w = (1 / 4 : ℂ) • w) ∧
    (H.mulVec w = ((J * z * count / 8 : ℝ) : ℂ) • w ↔ ∀ a c, downSpins a = downSpins c → w a = w c)

end Verif.LDB
