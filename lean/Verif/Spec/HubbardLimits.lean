import Verif.Spec.HubbardSymmetry
import Mathlib.Analysis.Matrix.Spectrum
/-!
# The Hubbard model without interaction, and what the interaction does to the lowest energy

`run t U Nup Ndown` is the result of the script.
-/

namespace Verif.LDB

open Verif.Latt Verif.Spec Demo

variable {m count : ℕ}

open Classical in
/-- The hopping of one electron: `t` between different points at distance `d`. -/
noncomputable def clusterHopping (d : ℝ) (points : Fin count → Pt m) (t : ℝ) : Matrix (Fin count) (Fin count) ℂ :=
  .of fun i j => if i ≠ j ∧ ndist (points i) (points j) = d then (t : ℂ) else 0

/-- The subsets of `N` elements. -/
def choices (count N : ℕ) : Finset (Finset (Fin count)) := Finset.powersetCard N Finset.univ

/-- Without interaction the energies are, with multiplicities, the sums of `Nup` different and `Ndown` different energies
of one electron. -/
def FreeLimit (d : ℝ) (points : Fin count → Pt m) (run : ℝ → ℝ → ℕ → ℕ → Option (Py Setup)) : Prop :=
  ∀ t Nup Ndown, Nup ≤ count → Ndown ≤ count → ∃ V, run t 0 Nup Ndown = some (.ok V) ∧
    ∃ h : (clusterHopping d points t).IsHermitian, V.HM.charpoly = ∏ A ∈ choices count Nup, ∏ D ∈ choices count Ndown,
      (Polynomial.X - Polynomial.C ((∑ k ∈ A, h.eigenvalues k + ∑ k ∈ D, h.eigenvalues k : ℝ) : ℂ))

/-- The lowest energy: an eigenvalue, and all eigenvalues are real and not smaller. -/
def IsLowest {N : ℕ} (M : Matrix (Fin N) (Fin N) ℂ) (E : ℝ) : Prop :=
  (∃ v, v ≠ 0 ∧ M.mulVec v = (E : ℂ) • v) ∧ ∀ (z : ℂ) (v : Fin N → ℂ), v ≠ 0 → M.mulVec v = z • v → z.im = 0 ∧ E ≤ z.re

/-- There is a lowest energy `E t U`.  Increasing `U` by `x` raises it by at least `x` times the number of points that
are doubly occupied in every state, and by at most `x` times the number of pairs that can be formed; and it is concave. -/
def LowestEnergy (count : ℕ) (run : ℝ → ℝ → ℕ → ℕ → Option (Py Setup)) : Prop :=
  ∀ Nup Ndown, Nup ≤ count → Ndown ≤ count → ∃ E : ℝ → ℝ → ℝ,
    (∀ t U, ∃ V, run t U Nup Ndown = some (.ok V) ∧ IsLowest V.HM (E t U)) ∧
    (∀ t U x, 0 ≤ x → E t U + x * ((Nup + Ndown - count : ℕ) : ℝ) ≤ E t (U + x) ∧
      E t (U + x) ≤ E t U + x * ((min Nup Ndown : ℕ) : ℝ)) ∧
    ∀ t U t' U' a : ℝ, 0 ≤ a → a ≤ 1 →
      a * E t U + (1 - a) * E t' U' ≤ E (a * t + (1 - a) * t') (a * U + (1 - a) * U')

/-- Both. -/
def HubbardLimits (d : ℝ) (points : Fin count → Pt m) (run : ℝ → ℝ → ℕ → ℕ → Option (Py Setup)) : Prop :=
  FreeLimit d points run ∧ LowestEnergy count run

end Verif.LDB
