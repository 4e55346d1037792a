import Verif.Spec.LatticeSpin
import Verif.Spec.HubbardLimits
/-!
# Bounds on the energies of the antiferromagnetic Heisenberg model

`H` is the Hamiltonian that a run of the script computes for the exchange constant `J`.
-/

namespace Verif.LDB

open Verif.Latt Verif.Spec

variable {m : ℕ}

/-- For `J >= 0` there is a lowest energy, and it is not below `-J w count / 8`. -/
def LowestAtLeast (w : ℝ) {count : ℕ} (_ : Lat count m m) (J : ℝ) (H : Matrix (Fin (2 ^ count)) (Fin (2 ^ count)) ℂ) :
    Prop :=
  0 ≤ J → ∃ E, IsLowest H E ∧ -(J * w * count / 8) ≤ E

/-- For `J >= 0` there is a lowest energy, and it is not above `-J w count / 8`. -/
def LowestAtMost (w : ℝ) {count : ℕ} (_ : Lat count m m) (J : ℝ) (H : Matrix (Fin (2 ^ count)) (Fin (2 ^ count)) ℂ) :
    Prop :=
  0 ≤ J → ∃ E, IsLowest H E ∧ E ≤ -(J * w * count / 8)

/-- For `J >= 0` no state has an energy above `J z count / 8`, the energy of all spins up. -/
def HighestUp (z : ℕ) {count : ℕ} (_ : Lat count m m) (J : ℝ) (H : Matrix (Fin (2 ^ count)) (Fin (2 ^ count)) ℂ) :
    Prop :=
  0 ≤ J → H.mulVec (upState count) = ((J * z * count / 8 : ℝ) : ℂ) • upState count ∧
    ∀ ψ, ψ ≠ 0 → (expectation H ψ).re ≤ J * z * count / 8

end Verif.LDB
