import Verif.Spec.Spin
import Verif.Model.DemoGreen
/-!
# Spec: the Heisenberg model on a ring
-/

namespace Verif.Spec

open Matrix Verif.Demo Verif.Lanczos

/-- The scalar product `S_i . S_j` of two spins of `n`. -/
noncomputable def spinDot (n i j : ℕ) : Matrix (Fin (2 ^ n)) (Fin (2 ^ n)) ℂ :=
  siteOp n i (spinHalf .x) * siteOp n j (spinHalf .x) + siteOp n i (spinHalf .y) * siteOp n j (spinHalf .y) +
    siteOp n i (spinHalf .z) * siteOp n j (spinHalf .z)

/-- `H = J sum_i S_i . S_{i+1}`, with `i + 1` taken modulo `n`. -/
noncomputable def ringHeisenberg (n : ℕ) (J : ℝ) : Matrix (Fin (2 ^ n)) (Fin (2 ^ n)) ℂ :=
  (J : ℂ) • ∑ i ∈ Finset.range n, spinDot n i ((i + 1) % n)

/-- The total spin in direction `a`. -/
noncomputable def totalSpinOp (n : ℕ) (a : SpinOtype) : Matrix (Fin (2 ^ n)) (Fin (2 ^ n)) ℂ :=
  ∑ i ∈ Finset.range n, siteOp n i (spinHalf a)

/-- The spin wave operator `S_k^- = n^{-1/2} sum_j exp(i k j) S_j^-`. -/
noncomputable def spinWave (n : ℕ) (k : ℝ) : Matrix (Fin (2 ^ n)) (Fin (2 ^ n)) ℂ :=
  ((1 / Real.sqrt n : ℝ) : ℂ) • ∑ j ∈ Finset.range n, Complex.exp (Complex.I * (k * j : ℝ)) • siteOp n j (spinHalf .m)

/-- The k-points are `2 pi i / n`, `i = 0, ..., n`.  Let `V`, `E` be any orthonormal basis of eigenvectors (columns) of
`H` with its energies.  Up to the error `err` the Green function is
`sum_l |<l| S_k^- |GS>|^2 / (omega + i eta - (E_l - GE))`, and the spectrum the same sum of normalised Lorentzians of
width `eta` at the excitation energies. -/
def IsSpinSpectrum (n : ℕ) (H : Matrix (Fin (2 ^ n)) (Fin (2 ^ n)) ℂ) (GE : ℝ) (GS : Fin (2 ^ n) → ℂ)
    (omegas : List ℝ) (eta err : ℝ) (R : Spectrum omegas.length) : Prop :=
  R.kpts = (List.range (n + 1)).map (fun i : ℕ => [2 * Real.pi * i / n]) ∧
  ∀ (V : Matrix (Fin (2 ^ n)) (Fin (2 ^ n)) ℂ) (E : Fin (2 ^ n) → ℝ), Vᴴ * V = 1 →
    (∀ l, H *ᵥ (fun r => V r l) = (E l : ℂ) • fun r => V r l) →
    ∀ (wi : Fin omegas.length) (i : Fin R.kpts.length),
      let weight := fun l =>
        Complex.normSq (Lanczos.vdot (fun r => V r l) (spinWave n (2 * Real.pi * (i : ℕ) / n) *ᵥ GS))
      ‖R.gfs wi i - ∑ l, (weight l : ℂ) / ((omegas.get wi : ℂ) + Complex.I * eta - ((E l - GE : ℝ) : ℂ))‖ ≤ err ∧
      |R.spectrum wi i - ∑ l, weight l * ((eta / Real.pi) / ((omegas.get wi - (E l - GE)) ^ 2 + eta ^ 2))| ≤
        err / Real.pi

end Verif.Spec
