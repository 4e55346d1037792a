import Verif.Proofs.LatticeSteps
/-!
# Wave vectors of the special clusters
-/

namespace Verif.LDB

open Verif.Latt Demo

variable {prec : ℕ} {which : String}

theorem mem_shifted_square (t : Pt 2) (a b : ℤ) : t + ![(a : ℝ), (b : ℝ)] ∈ shifted t squareSites :=
  ⟨a, b, by rw [add_sub_cancel_left]⟩

theorem mem_shifted_triangle (t : Pt 2) (a b : ℤ) :
    t + ![(a : ℝ) + (b : ℝ) / 2, (b : ℝ) * (Real.sqrt 3 / 2)] ∈ shifted t triangleSites :=
  ⟨a, b, by rw [add_sub_cancel_left]⟩

theorem energies_cross (hp : 1 ≤ prec) (hw : which ∈ ["square_cross", "square_12", "cross"])
    (hf : FindsNearest prec (shifted ![1 / 2, 1 / 2] squareSites) 1 (specialCluster prec which))
    (hfold : FoldsEverySite prec (shifted ![1 / 2, 1 / 2] squareSites) (specialCluster prec which)) :
    EveryRun prec 12 (specialCluster prec which) (Energies 2 fun t (x : Fin 12) =>
      2 * t * (Real.cos (2 * Real.pi * (x : ℕ) / 6) + Real.cos (2 * Real.pi * (x : ℕ) / 4))) := by
  refine energies_run one_ne_zero (by norm_num) (by norm_num) (coordination_shift coord_square _)
    (C54_cross hp which hw) hf hfold (bravais_shift bravais_square _) (steps_shift steps_square _) (by simp)
    (fun x : Fin 12 => ![2 * Real.pi * (x : ℕ) / 6, 2 * Real.pi * (x : ℕ) / 4]) ?_ ?_ _ ?_
  · intro x i
    fin_cases i
    · exact ⟨0, by rw [dot2]; simp; ring⟩
    · exact ⟨x, by rw [dot2]; simp; ring⟩
  · intro x y h
    have := h _ (mem_shifted_square _ 0 0) _ (mem_shifted_square _ (-1) 1)
    rw [add_sub_add_left_eq_sub] at this
    exact phase_eq this (by rw [dot2]; simp; ring) (by rw [dot2]; simp; ring)
  · intro t x
    unfold bandEnergy
    rw [sum_squareSteps]
    simp only [dot2, Matrix.cons_val_zero, Matrix.cons_val_one, Matrix.cons_val_fin_one, mul_one, mul_neg, mul_zero,
      add_zero, zero_add, Real.cos_neg]
    ring

theorem energies_z (hp : 1 ≤ prec) (hw : which ∈ ["square_z", "z"])
    (hf : FindsNearest prec (shifted ![1 / 2, 0] squareSites) 1 (specialCluster prec which))
    (hfold : FoldsEverySite prec (shifted ![1 / 2, 0] squareSites) (specialCluster prec which)) :
    EveryRun prec 10 (specialCluster prec which) (Energies 2 fun t (x : Fin 10) =>
      2 * t * (Real.cos (2 * Real.pi * (x : ℕ) / 10) + Real.cos (6 * Real.pi * (x : ℕ) / 10))) := by
  refine energies_run one_ne_zero (by norm_num) (by norm_num) (coordination_shift coord_square _)
    (C54_z hp which hw) hf hfold (bravais_shift bravais_square _) (steps_shift steps_square _) (by simp)
    (fun x : Fin 10 => ![6 * Real.pi * (x : ℕ) / 10, 2 * Real.pi * (x : ℕ) / 10]) ?_ ?_ _ ?_
  · intro x i
    fin_cases i
    · exact ⟨0, by rw [dot2]; simp; ring⟩
    · exact ⟨x, by rw [dot2]; simp; ring⟩
  · intro x y h
    have := h _ (mem_shifted_square _ 0 0) _ (mem_shifted_square _ 0 1)
    rw [add_sub_add_left_eq_sub] at this
    exact phase_eq this (by rw [dot2]; simp) (by rw [dot2]; simp)
  · intro t x
    unfold bandEnergy
    rw [sum_squareSteps]
    simp only [dot2, Matrix.cons_val_zero, Matrix.cons_val_one, Matrix.cons_val_fin_one, mul_one, mul_neg, mul_zero,
      add_zero, zero_add, Real.cos_neg]
    ring

theorem energies_s (hp : 1 ≤ prec) (hw : which ∈ ["square_s", "s"])
    (hf : FindsNearest prec (shifted ![1 / 2, 0] squareSites) 1 (specialCluster prec which))
    (hfold : FoldsEverySite prec (shifted ![1 / 2, 0] squareSites) (specialCluster prec which)) :
    EveryRun prec 10 (specialCluster prec which) (Energies 2 fun t (x : Fin 10) =>
      2 * t * (Real.cos (2 * Real.pi * (x : ℕ) / 10) + Real.cos (6 * Real.pi * (x : ℕ) / 10))) := by
  refine energies_run one_ne_zero (by norm_num) (by norm_num) (coordination_shift coord_square _)
    (C54_s hp which hw) hf hfold (bravais_shift bravais_square _) (steps_shift steps_square _) (by simp)
    (fun x : Fin 10 => ![2 * Real.pi * (x : ℕ) / 10, 6 * Real.pi * (x : ℕ) / 10]) ?_ ?_ _ ?_
  · intro x i
    fin_cases i
    · exact ⟨0, by rw [dot2]; simp; ring⟩
    · exact ⟨x, by rw [dot2]; simp; ring⟩
  · intro x y h
    have := h _ (mem_shifted_square _ 0 0) _ (mem_shifted_square _ 1 0)
    rw [add_sub_add_left_eq_sub] at this
    exact phase_eq this (by rw [dot2]; simp) (by rw [dot2]; simp)
  · intro t x
    unfold bandEnergy
    rw [sum_squareSteps]
    simp only [dot2, Matrix.cons_val_zero, Matrix.cons_val_one, Matrix.cons_val_fin_one, mul_one, mul_neg, mul_zero,
      add_zero, zero_add, Real.cos_neg]
    ring

theorem energies_star (hp : 1 ≤ prec) (hw : which ∈ ["triangle_star", "triangle_13", "star", "SD"])
    (hf : FindsNearest prec (shifted ![0, 0] triangleSites) 1 (specialCluster prec which))
    (hfold : FoldsEverySite prec (shifted ![0, 0] triangleSites) (specialCluster prec which)) :
    EveryRun prec 13 (specialCluster prec which) (Energies 2 fun t (x : Fin 13) =>
      2 * t * (Real.cos (2 * Real.pi * (x : ℕ) / 13) + Real.cos (6 * Real.pi * (x : ℕ) / 13) +
        Real.cos (8 * Real.pi * (x : ℕ) / 13))) := by
  have h3 : Real.sqrt 3 ≠ 0 := by positivity
  have d1 : ∀ a b : ℝ, a * (1 / 2) + (2 * b - a) / Real.sqrt 3 * (Real.sqrt 3 / 2) = b := by
    intro a b; field_simp; ring
  have d2 : ∀ a b : ℝ, a * (-1 / 2) + (2 * b - a) / Real.sqrt 3 * (-Real.sqrt 3 / 2) = -b := by
    intro a b; field_simp; ring
  have f : ∀ a b : ℝ, a * (1 / 2) + (2 * b - a) / Real.sqrt 3 * (-Real.sqrt 3 / 2) = a - b := by
    intro a b; field_simp; ring
  have f' : ∀ a b : ℝ, a * (-1 / 2) + (2 * b - a) / Real.sqrt 3 * (Real.sqrt 3 / 2) = -(a - b) := by
    intro a b; field_simp; ring
  refine energies_run one_ne_zero (by norm_num) (by norm_num) (coordination_shift coord_triangle _)
    (C54_star hp which hw) hf hfold (bravais_shift bravais_triangle _) (steps_shift steps_triangle _) (by simp)
    (fun x : Fin 13 => ![8 * Real.pi * (x : ℕ) / 13,
      (2 * (2 * Real.pi * (x : ℕ) / 13) - 8 * Real.pi * (x : ℕ) / 13) / Real.sqrt 3]) ?_ ?_ _ ?_
  · intro x i
    fin_cases i
    · exact ⟨x, by rw [dot2]; simp; field_simp; ring⟩
    · exact ⟨0, by rw [dot2]; simp; field_simp; ring⟩
  · intro x y h
    have := h _ (mem_shifted_triangle _ 0 0) _ (mem_shifted_triangle _ 0 1)
    rw [add_sub_add_left_eq_sub] at this
    refine phase_eq this ?_ ?_ <;>
    · rw [dot2]; simp; field_simp; ring
  · intro t x
    unfold bandEnergy
    rw [sum_triangleSteps]
    simp only [dot2, Matrix.cons_val_zero, Matrix.cons_val_one, Matrix.cons_val_fin_one, d1, d2, f, f', mul_one, mul_neg,
      mul_zero, add_zero, Real.cos_neg]
    rw [show 8 * Real.pi * (x : ℕ) / 13 - 2 * Real.pi * (x : ℕ) / 13 = 6 * Real.pi * (x : ℕ) / 13 by ring]
    ring

end Verif.LDB
