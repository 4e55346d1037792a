import Verif.Model.Spin
import Mathlib.LinearAlgebra.Matrix.Notation
import Mathlib.LinearAlgebra.Matrix.ConjTranspose
/-!
# Specification: spin operators on a chain of spins

Basis states of `n` spins are the numbers `a < 2^n`; spin `j` is up when binary digit `j` of `a` is 0.
-/

namespace Verif.Spec

/-- Binary digit `j` of `a`. -/
def digit (a j : ℕ) : Fin 2 := ⟨a / 2 ^ j % 2, Nat.mod_lt _ (by norm_num)⟩

/-- The spin-1/2 matrices in the basis (up, down). -/
noncomputable def spinHalf : SpinOtype → Matrix (Fin 2) (Fin 2) ℂ
  | .x => !![0, 1 / 2; 1 / 2, 0]
  | .y => !![0, -Complex.I / 2; Complex.I / 2, 0]
  | .z => !![1 / 2, 0; 0, -1 / 2]
  | .p => !![0, 1; 0, 0]
  | .m => !![0, 0; 1, 0]

open Classical in
/-- The one-spin operator `A` acting on spin `i` of `n` spins: it connects `b` with `a` only if they
agree on all other spins. -/
noncomputable def siteOp (n i : ℕ) (A : Matrix (Fin 2) (Fin 2) ℂ) :
    Matrix (Fin (2 ^ n)) (Fin (2 ^ n)) ℂ :=
  Matrix.of fun a b =>
    if ∀ j < n, j ≠ i → digit a j = digit b j then A (digit a i) (digit b i) else 0

end Verif.Spec

namespace Verif

/-- A model matrix as a mathematical matrix. -/
def SMat.toMatrix (M : SMat) (d : ℕ) : Matrix (Fin d) (Fin d) ℂ := Matrix.of fun r c => M.get r c

end Verif
