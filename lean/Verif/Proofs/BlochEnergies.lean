import Verif.Proofs.BlochLattices
/-!
# The bands of the honeycomb and kagome lattices
-/

namespace Verif.LDB

open Verif.Latt Demo Polynomial

/-- The wave vector with phases `a` and `b` along the two translations of the triangular lattice. -/
noncomputable def hexWave (a b : ℝ) : Pt 2 := ![a, (2 * b - a) / Real.sqrt 3]

theorem hexWave_dot (a b : ℝ) (p : Pt 2) :
    ∑ i, hexWave a b i * p i = a * p 0 + (2 * b - a) * (Real.sqrt 3 / 3 * p 1) := by
  rw [dot2]
  simp only [hexWave, Matrix.cons_val_zero, Matrix.cons_val_one, Matrix.cons_val_fin_one]
  rw [div_eq_mul_one_div, s3_inv]
  ring

theorem planeWave_hex (a b : ℝ) (p : Pt 2) : planeWave (hexWave a b) p =
    Complex.exp (Complex.I * ((a * p 0 + (2 * b - a) * (Real.sqrt 3 / 3 * p 1) : ℝ) : ℂ)) := by
  rw [planeWave, hexWave_dot]

theorem wave_mul (x y : ℝ) : Complex.exp (Complex.I * x) * Complex.exp (Complex.I * y) =
    Complex.exp (Complex.I * ((x + y : ℝ) : ℂ)) := by
  rw [← Complex.exp_add]; push_cast; congr 1; ring

theorem wave_cos (x : ℝ) : Complex.exp (Complex.I * x) + Complex.exp (Complex.I * ((-x : ℝ) : ℂ)) =
    ((2 * Real.cos x : ℝ) : ℂ) := by
  push_cast
  rw [Complex.two_cos]
  congr 2 <;> ring

theorem honey_charpoly (t a b : ℝ) : (blochMatrix t honeyD (hexWave a b)).charpoly =
    ∏ j : Fin 2, (X - C (((![1, -1] : Fin 2 → ℝ) j * (t *
      Real.sqrt (3 + 2 * Real.cos a + 2 * Real.cos b + 2 * Real.cos (a - b))) : ℝ) : ℂ)) := by
  have hs := s3
  have h00 : blochMatrix t honeyD (hexWave a b) 0 0 = 0 := by simp [blochMatrix, honeyD]
  have h11 : blochMatrix t honeyD (hexWave a b) 1 1 = 0 := by simp [blochMatrix, honeyD]
  have hw : ∀ p0 p1 : ℝ, planeWave (hexWave a b) ![p0, p1] =
      Complex.exp (Complex.I * ((a * p0 + (2 * b - a) * (Real.sqrt 3 / 3 * p1) : ℝ) : ℂ)) := fun p0 p1 => by
    rw [planeWave_hex]; simp
  have e1 : Real.sqrt 3 / 3 * (Real.sqrt 3 / 3) = 1 / 3 := by nlinarith
  have e2 : Real.sqrt 3 / 3 * (Real.sqrt 3 / 6) = 1 / 6 := by nlinarith
  have h01 : blochMatrix t honeyD (hexWave a b) 0 1 = t * (Complex.exp (Complex.I * (((2 * b - a) / 3 : ℝ) : ℂ)) +
      (Complex.exp (Complex.I * (((2 * a - b) / 3 : ℝ) : ℂ)) + Complex.exp (Complex.I * ((-(a + b) / 3 : ℝ) : ℂ)))) := by
    simp only [blochMatrix, honeyD, Matrix.of_apply, Matrix.cons_val_zero, Matrix.cons_val_one, Matrix.cons_val_fin_one,
      sum_honeyUp, hw, mul_neg, e1, e2]
    congr 6 <;> ring_nf
  have h10 : blochMatrix t honeyD (hexWave a b) 1 0 = t * (Complex.exp (Complex.I * ((-((2 * b - a) / 3) : ℝ) : ℂ)) +
      (Complex.exp (Complex.I * ((-((2 * a - b) / 3) : ℝ) : ℂ)) + Complex.exp (Complex.I * ((-(-(a + b) / 3) : ℝ) : ℂ)))) := by
    simp only [blochMatrix, honeyD, Matrix.of_apply, Matrix.cons_val_zero, Matrix.cons_val_one, Matrix.cons_val_fin_one,
      sum_honeyDown, hw, mul_neg, e1, e2]
    congr 6 <;> ring_nf
  have hR0 : 0 ≤ 3 + 2 * Real.cos a + 2 * Real.cos b + 2 * Real.cos (a - b) := by
    have : 3 + 2 * Real.cos a + 2 * Real.cos b + 2 * Real.cos (a - b) =
        (1 + Real.cos a + Real.cos b) ^ 2 + (Real.sin a + Real.sin b) ^ 2 := by
      rw [Real.cos_sub]
      nlinarith [Real.sin_sq_add_cos_sq a, Real.sin_sq_add_cos_sq b]
    rw [this]; positivity
  have hprod : blochMatrix t honeyD (hexWave a b) 0 1 * blochMatrix t honeyD (hexWave a b) 1 0 =
      ((t ^ 2 * (3 + 2 * Real.cos a + 2 * Real.cos b + 2 * Real.cos (a - b)) : ℝ) : ℂ) := by
    rw [h01, h10]
    have c1 := wave_cos a
    have c2 := wave_cos b
    have c3 := wave_cos (a - b)
    have m : ∀ x y : ℝ, Complex.exp (Complex.I * x) * Complex.exp (Complex.I * ((-y : ℝ) : ℂ)) =
      Complex.exp (Complex.I * ((x - y : ℝ) : ℂ)) := fun x y => by rw [wave_mul]; rfl
    set u := Complex.exp (Complex.I * (((2 * b - a) / 3 : ℝ) : ℂ)) with hu
    set v := Complex.exp (Complex.I * (((2 * a - b) / 3 : ℝ) : ℂ)) with hv
    set w := Complex.exp (Complex.I * ((-(a + b) / 3 : ℝ) : ℂ)) with hw
    set u' := Complex.exp (Complex.I * ((-((2 * b - a) / 3) : ℝ) : ℂ)) with hu'
    set v' := Complex.exp (Complex.I * ((-((2 * a - b) / 3) : ℝ) : ℂ)) with hv'
    set w' := Complex.exp (Complex.I * ((-(-(a + b) / 3) : ℝ) : ℂ)) with hw'
    have k1 : u * u' = 1 := by rw [hu, hu', m]; simp
    have k2 : v * v' = 1 := by rw [hv, hv', m]; simp
    have k3 : w * w' = 1 := by rw [hw, hw', m]; simp
    have k4 : v * w' + w * v' = ((2 * Real.cos a : ℝ) : ℂ) := by
      rw [hv, hw', hw, hv', m, m, ← c1]; congr 4 <;> ring_nf
    have k5 : u * w' + w * u' = ((2 * Real.cos b : ℝ) : ℂ) := by
      rw [hu, hw', hw, hu', m, m, ← c2]; congr 4 <;> ring_nf
    have k6 : v * u' + u * v' = ((2 * Real.cos (a - b) : ℝ) : ℂ) := by
      rw [hv, hu', hu, hv', m, m, ← c3]; congr 4 <;> ring_nf
    push_cast at k4 k5 k6 ⊢
    linear_combination (t : ℂ) ^ 2 * (k1 + k2 + k3 + k4 + k5 + k6)
  have hsq := Real.mul_self_sqrt hR0
  generalize 3 + 2 * Real.cos a + 2 * Real.cos b + 2 * Real.cos (a - b) = R at *
  rw [Matrix.charpoly_fin_two, Matrix.trace_fin_two, Matrix.det_fin_two, h00, h11, hprod, Fin.prod_univ_two]
  simp only [Matrix.cons_val_zero, Matrix.cons_val_one, Matrix.cons_val_fin_one, add_zero, map_zero, zero_mul, mul_zero,
    sub_zero, zero_sub, map_neg, one_mul, neg_mul, Complex.ofReal_neg, sub_neg_eq_add]
  rw [show t ^ 2 * R = (t * Real.sqrt R) * (t * Real.sqrt R) by linear_combination -t ^ 2 * hsq]
  push_cast
  simp only [map_mul]
  ring

theorem kag_real (A B : ℝ) : Real.cos A ^ 2 + Real.cos B ^ 2 + Real.cos (A - B) ^ 2 =
    1 + 2 * (Real.cos A * Real.cos B * Real.cos (A - B)) := by
  rw [Real.cos_sub]
  have h1 := Real.sin_sq_add_cos_sq A
  have h2 := Real.sin_sq_add_cos_sq B
  have e1 : Real.sin A ^ 2 = 1 - Real.cos A ^ 2 := by linarith
  have e2 : Real.sin B ^ 2 = 1 - Real.cos B ^ 2 := by linarith
  have : (Real.sin A * Real.sin B) ^ 2 = (1 - Real.cos A ^ 2) * (1 - Real.cos B ^ 2) := by rw [mul_pow, e1, e2]
  nlinarith [this]

theorem kag_nonneg (A B : ℝ) : 0 ≤ 1 + 8 * (Real.cos A * Real.cos B * Real.cos (A - B)) := by
  have h : 2 * (Real.cos A * Real.cos B) = Real.cos (A + B) + Real.cos (A - B) := by
    rw [Real.cos_add, Real.cos_sub]; ring
  have e : 1 + 8 * (Real.cos A * Real.cos B * Real.cos (A - B)) =
      1 + 4 * ((Real.cos (A + B) + Real.cos (A - B)) * Real.cos (A - B)) := by rw [← h]; ring
  rw [e]
  have h1 := Real.neg_one_le_cos (A + B)
  have h2 := Real.cos_le_one (A + B)
  rcases le_total 0 (Real.cos (A - B)) with h0 | h0
  · nlinarith [sq_nonneg (2 * Real.cos (A - B) - 1)]
  · nlinarith [sq_nonneg (2 * Real.cos (A - B) + 1)]

theorem kag_charpoly (t a b : ℝ) : (blochMatrix t kagD (hexWave a b)).charpoly =
    ∏ j : Fin 3, (X - C (((![-2 * t,
      t * (1 + Real.sqrt (1 + 8 * (Real.cos (a / 2) * Real.cos (b / 2) * Real.cos (a / 2 - b / 2)))),
      t * (1 - Real.sqrt (1 + 8 * (Real.cos (a / 2) * Real.cos (b / 2) * Real.cos (a / 2 - b / 2))))] : Fin 3 → ℝ) j : ℝ) : ℂ)) := by
  have hs := s3
  have hw : ∀ p0 p1 : ℝ, planeWave (hexWave a b) ![p0, p1] =
      Complex.exp (Complex.I * ((a * p0 + (2 * b - a) * (Real.sqrt 3 / 3 * p1) : ℝ) : ℂ)) := fun p0 p1 => by
    rw [planeWave_hex]; simp
  have e1 : Real.sqrt 3 / 3 * (Real.sqrt 3 / 4) = 1 / 4 := by nlinarith
  have k01 : ∑ y ∈ kag01, planeWave (hexWave a b) y = ((2 * Real.cos (b / 2) : ℝ) : ℂ) := by
    rw [sum_kag01, hw, hw, ← wave_cos, mul_neg, e1]
    congr 4 <;> ring_nf
  have k02 : ∑ y ∈ kag02, planeWave (hexWave a b) y = ((2 * Real.cos (a / 2) : ℝ) : ℂ) := by
    rw [sum_kag02, hw, hw, ← wave_cos]
    congr 4 <;> ring_nf
  have k12 : ∑ y ∈ kag12, planeWave (hexWave a b) y = ((2 * Real.cos (a / 2 - b / 2) : ℝ) : ℂ) := by
    rw [sum_kag12, hw, hw, ← wave_cos, mul_neg, e1]
    congr 4 <;> ring_nf
  have hM : blochMatrix t kagD (hexWave a b) = !![0, ((t * (2 * Real.cos (b / 2)) : ℝ) : ℂ), ((t * (2 * Real.cos (a / 2)) : ℝ) : ℂ);
      ((t * (2 * Real.cos (b / 2)) : ℝ) : ℂ), 0, ((t * (2 * Real.cos (a / 2 - b / 2)) : ℝ) : ℂ);
      ((t * (2 * Real.cos (a / 2)) : ℝ) : ℂ), ((t * (2 * Real.cos (a / 2 - b / 2)) : ℝ) : ℂ), 0] := by
    ext i j
    fin_cases i <;> fin_cases j <;> simp [blochMatrix, kagD, k01, k02, k12]
  have hsq := Real.mul_self_sqrt (kag_nonneg (a / 2) (b / 2))
  have hid := kag_real (a / 2) (b / 2)
  rw [hM]
  generalize Real.sqrt (1 + 8 * (Real.cos (a / 2) * Real.cos (b / 2) * Real.cos (a / 2 - b / 2))) = r at *
  generalize Real.cos (a / 2) = x at *
  generalize Real.cos (b / 2) = y at *
  generalize Real.cos (a / 2 - b / 2) = z at *
  rw [Matrix.charpoly, Matrix.det_fin_three, Fin.prod_univ_three]
  simp only [Matrix.charmatrix_apply, Matrix.of_apply, Matrix.diagonal_apply, Matrix.cons_val_zero, Matrix.cons_val_one, Matrix.cons_val]
  simp only [Fin.isValue, Fin.reduceEq, if_true, if_false, map_zero, zero_sub, sub_zero]
  have hsq' : (C (r : ℂ)) * C (r : ℂ) = (1 + 8 * (C (x : ℂ) * C (y : ℂ) * C (z : ℂ)) : ℂ[X]) := by
    rw [← C_mul, ← Complex.ofReal_mul, hsq]; push_cast; simp only [map_add, map_mul, map_one]; congr 1
  have hid' : (C (x : ℂ)) ^ 2 + C (y : ℂ) ^ 2 + C (z : ℂ) ^ 2 = (1 + 2 * (C (x : ℂ) * C (y : ℂ) * C (z : ℂ)) : ℂ[X]) := by
    rw [← C_pow, ← C_pow, ← C_pow, ← C_add, ← C_add]
    rw [show ((x : ℂ) ^ 2 + (y : ℂ) ^ 2 + (z : ℂ) ^ 2) = 1 + 2 * ((x : ℂ) * y * z) by exact_mod_cast hid]
    simp only [map_add, map_mul, map_one]; congr 1
  have c2 : C (2 : ℂ) = (2 : ℂ[X]) := rfl
  push_cast
  simp only [map_mul, map_add, map_sub, map_neg, map_one, c2]
  linear_combination (-4 * C (t : ℂ) ^ 2 * X) * hid' + (C (t : ℂ) ^ 2 * X + 2 * C (t : ℂ) ^ 3) * hsq'

end Verif.LDB
