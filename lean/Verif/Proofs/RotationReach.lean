import Verif.Props.Rotation3D
import Mathlib.Analysis.SpecialFunctions.Complex.Arg
import Mathlib.LinearAlgebra.Matrix.ToLinearEquiv
import Mathlib.Tactic
/-!
# Every rotation has Euler angles, and an axis and an angle
-/

namespace Verif.Rot

open Matrix Verif.Spec

theorem polar {a b : ℝ} (h : a ^ 2 + b ^ 2 = 1) :
    ∃ t, -Real.pi < t ∧ t ≤ Real.pi ∧ Real.cos t = a ∧ Real.sin t = b := by
  have hn : ‖(⟨a, b⟩ : ℂ)‖ = 1 := by
    rw [← sq_eq_sq₀ (norm_nonneg _) zero_le_one, ← Complex.normSq_eq_norm_sq, Complex.normSq_mk]
    linarith
  have h0 : (⟨a, b⟩ : ℂ) ≠ 0 := fun e => by rw [e, norm_zero] at hn; norm_num at hn
  refine ⟨Complex.arg ⟨a, b⟩, Complex.neg_pi_lt_arg _, Complex.arg_le_pi _, ?_, ?_⟩
  · rw [Complex.cos_arg h0, hn, div_one]
  · rw [Complex.sin_arg, hn, div_one]

theorem spherical {x y z : ℝ} (h : x ^ 2 + y ^ 2 + z ^ 2 = 1) :
    ∃ a b, -Real.pi < a ∧ a ≤ Real.pi ∧ 0 ≤ b ∧ b ≤ Real.pi ∧ x = Real.sin b * Real.cos a ∧
      y = Real.sin b * Real.sin a ∧ z = Real.cos b := by
  have hz1 : -1 ≤ z := by nlinarith [sq_nonneg x, sq_nonneg y]
  have hz2 : z ≤ 1 := by nlinarith [sq_nonneg x, sq_nonneg y]
  have hs : Real.sin (Real.arccos z) ^ 2 = x ^ 2 + y ^ 2 := by
    rw [Real.sin_arccos, Real.sq_sqrt (by nlinarith)]; linarith
  by_cases h0 : Real.sin (Real.arccos z) = 0
  · rw [h0] at hs
    have hx : x = 0 := by nlinarith [sq_nonneg x, sq_nonneg y]
    have hy : y = 0 := by nlinarith [sq_nonneg x, sq_nonneg y]
    exact ⟨0, Real.arccos z, by linarith [Real.pi_pos], Real.pi_pos.le, Real.arccos_nonneg z, Real.arccos_le_pi z,
      by rw [h0, hx]; ring, by rw [h0, hy]; ring, (Real.cos_arccos hz1 hz2).symm⟩
  · obtain ⟨t, t1, t2, t3, t4⟩ := polar (a := x / Real.sin (Real.arccos z)) (b := y / Real.sin (Real.arccos z))
      (by rw [div_pow, div_pow, ← add_div, hs, div_self (by rw [← hs]; exact pow_ne_zero _ h0)])
    exact ⟨t, Real.arccos z, t1, t2, Real.arccos_nonneg z, Real.arccos_le_pi z,
      by rw [t3]; field_simp, by rw [t4]; field_simp, (Real.cos_arccos hz1 hz2).symm⟩

/-- The rotation about z. -/
noncomputable def mz (t : ℝ) : Mat3 := !![Real.cos t, -Real.sin t, 0; Real.sin t, Real.cos t, 0; 0, 0, 1]
/-- The rotation about y. -/
noncomputable def my (t : ℝ) : Mat3 := !![Real.cos t, 0, Real.sin t; 0, 1, 0; -Real.sin t, 0, Real.cos t]

theorem fixes_z {Q : Mat3} (hQ : OrthDet Q 1) (h : Q *ᵥ ![0, 0, 1] = ![0, 0, 1]) :
    ∃ t, -Real.pi < t ∧ t ≤ Real.pi ∧ Q = mz t := by
  obtain ⟨h1, h2, h3⟩ := hQ
  have c0 : Q 0 2 = 0 := by simpa [mulVec, dotProduct, Fin.sum_univ_three] using congrFun h 0
  have c1 : Q 1 2 = 0 := by simpa [mulVec, dotProduct, Fin.sum_univ_three] using congrFun h 1
  have c2 : Q 2 2 = 1 := by simpa [mulVec, dotProduct, Fin.sum_univ_three] using congrFun h 2
  have r2 : Q 2 0 * Q 2 0 + Q 2 1 * Q 2 1 + Q 2 2 * Q 2 2 = 1 := by
    simpa [Matrix.mul_apply, Fin.sum_univ_three] using congrFun (congrFun h1 2) 2
  rw [c2] at r2
  have r20 : Q 2 0 = 0 := by nlinarith [mul_self_nonneg (Q 2 0), mul_self_nonneg (Q 2 1)]
  have r21 : Q 2 1 = 0 := by nlinarith [mul_self_nonneg (Q 2 0), mul_self_nonneg (Q 2 1)]
  have n0 : Q 0 0 * Q 0 0 + Q 1 0 * Q 1 0 = 1 := by
    have : Q 0 0 * Q 0 0 + Q 1 0 * Q 1 0 + Q 2 0 * Q 2 0 = 1 := by
      simpa [Matrix.mul_apply, Fin.sum_univ_three] using congrFun (congrFun h2 0) 0
    rw [r20] at this; linarith
  have n1 : Q 0 1 * Q 0 1 + Q 1 1 * Q 1 1 = 1 := by
    have : Q 0 1 * Q 0 1 + Q 1 1 * Q 1 1 + Q 2 1 * Q 2 1 = 1 := by
      simpa [Matrix.mul_apply, Fin.sum_univ_three] using congrFun (congrFun h2 1) 1
    rw [r21] at this; linarith
  have hd : Q 0 0 * Q 1 1 - Q 0 1 * Q 1 0 = 1 := by
    rw [Matrix.det_fin_three, c0, c1, c2, r20, r21] at h3
    linarith
  have hz : (Q 1 1 - Q 0 0) ^ 2 + (Q 0 1 + Q 1 0) ^ 2 = 0 := by linear_combination n0 + n1 - 2 * hd
  have e1 : Q 1 1 = Q 0 0 := by nlinarith [sq_nonneg (Q 1 1 - Q 0 0), sq_nonneg (Q 0 1 + Q 1 0)]
  have e2 : Q 0 1 = -Q 1 0 := by nlinarith [sq_nonneg (Q 1 1 - Q 0 0), sq_nonneg (Q 0 1 + Q 1 0)]
  obtain ⟨t, t1, t2, t3, t4⟩ := polar (a := Q 0 0) (b := Q 1 0) (by linarith)
  refine ⟨t, t1, t2, ?_⟩
  ext i j
  fin_cases i <;> fin_cases j <;> simp [mz, t3, t4, c0, c1, c2, r20, r21, e1, e2]

theorem orth_mz (t : ℝ) : OrthDet (mz t) 1 := orth_rz (Real.cos_sq_add_sin_sq t)
theorem orth_my (t : ℝ) : OrthDet (my t) 1 := orth_ry (Real.cos_sq_add_sin_sq t)

theorem to_axis (a b : ℝ) : (mz a * my b) *ᵥ ![0, 0, 1] =
    ![Real.sin b * Real.cos a, Real.sin b * Real.sin a, Real.cos b] := by
  ext i
  fin_cases i <;> simp [mz, my, mulVec, dotProduct, Fin.sum_univ_three, Matrix.mul_apply] <;> ring

theorem from_axis (a b : ℝ) : (mz a * my b)ᵀ *ᵥ
    ![Real.sin b * Real.cos a, Real.sin b * Real.sin a, Real.cos b] = ![0, 0, 1] := by
  rw [← to_axis, mulVec_mulVec, ((orth_mz a).mul (orth_my b)).2.1, one_mulVec]

/-- Every proper rotation has Euler angles. -/
theorem euler_angles {R : Mat3} (hR : OrthDet R 1) : ∃ a b c, -Real.pi < a ∧ a ≤ Real.pi ∧ 0 ≤ b ∧
    b ≤ Real.pi ∧ -Real.pi < c ∧ c ≤ Real.pi ∧ R = mz a * my b * mz c := by
  have hn : R 0 2 ^ 2 + R 1 2 ^ 2 + R 2 2 ^ 2 = 1 := by
    have : R 0 2 * R 0 2 + R 1 2 * R 1 2 + R 2 2 * R 2 2 = 1 := by
      simpa [Matrix.mul_apply, Fin.sum_univ_three] using congrFun (congrFun hR.2.1 2) 2
    linarith
  obtain ⟨a, b, a1, a2, b1, b2, hx, hy, hz⟩ := spherical hn
  have hA := (orth_mz a).mul (orth_my b)
  rw [one_mul] at hA
  have hcol : R *ᵥ ![0, 0, 1] = ![Real.sin b * Real.cos a, Real.sin b * Real.sin a, Real.cos b] := by
    rw [← hx, ← hy, ← hz]
    ext i
    fin_cases i <;> simp [mulVec, dotProduct, Fin.sum_univ_three]
  have hQ := hA.transpose.mul hR
  rw [one_mul] at hQ
  obtain ⟨c, c1, c2, hc⟩ := fixes_z hQ (by rw [← mulVec_mulVec, hcol, from_axis])
  refine ⟨a, b, c, a1, a2, b1, b2, c1, c2, ?_⟩
  rw [← hc, ← Matrix.mul_assoc, hA.1, Matrix.one_mul]

/-- Every proper rotation fixes a unit vector. -/
theorem fixed_unit {R : Mat3} (hR : OrthDet R 1) :
    ∃ x y z : ℝ, x ^ 2 + y ^ 2 + z ^ 2 = 1 ∧ R *ᵥ ![x, y, z] = ![x, y, z] := by
  have hdet : (R - 1).det = 0 := by
    have h1 : (R - 1).det = (1 - R).det := by
      have : R - 1 = R * (1 - R)ᵀ := by
        rw [transpose_sub, transpose_one, Matrix.mul_sub, Matrix.mul_one, hR.1]
      rw [this, det_mul, hR.2.2, one_mul, det_transpose]
    have h2 : (1 - R).det = -(R - 1).det := by
      rw [← neg_sub R 1, det_neg]; simp; ring
    linarith
  obtain ⟨v, hv0, hv⟩ := Matrix.exists_mulVec_eq_zero_iff.2 hdet
  rw [Matrix.sub_mulVec, one_mulVec, sub_eq_zero] at hv
  have hs : 0 < v 0 ^ 2 + v 1 ^ 2 + v 2 ^ 2 := by
    by_contra hc
    push Not at hc
    refine hv0 (funext fun i => ?_)
    fin_cases i <;> simp <;> nlinarith [sq_nonneg (v 0), sq_nonneg (v 1), sq_nonneg (v 2)]
  set r := √(v 0 ^ 2 + v 1 ^ 2 + v 2 ^ 2) with hr
  have hr0 : 0 < r := Real.sqrt_pos.2 hs
  have hr2 : r ^ 2 = v 0 ^ 2 + v 1 ^ 2 + v 2 ^ 2 := Real.sq_sqrt hs.le
  have he : ![v 0 / r, v 1 / r, v 2 / r] = r⁻¹ • v := by
    ext i
    fin_cases i <;> simp [div_eq_inv_mul]
  refine ⟨v 0 / r, v 1 / r, v 2 / r, ?_, ?_⟩
  · rw [div_pow, div_pow, div_pow, ← add_div, ← add_div, ← hr2, div_self (pow_ne_zero _ hr0.ne')]
  · rw [he, mulVec_smul, hv]

/-- Every proper rotation is a rotation about an axis. -/
theorem axis_angle {R : Mat3} (hR : OrthDet R 1) : ∃ a b t, -Real.pi < a ∧ a ≤ Real.pi ∧ 0 ≤ b ∧
    b ≤ Real.pi ∧ -Real.pi < t ∧ t ≤ Real.pi ∧
    R = rodrigues (Real.sin b * Real.cos a) (Real.sin b * Real.sin a) (Real.cos b) t := by
  obtain ⟨x, y, z, hn, hf⟩ := fixed_unit hR
  obtain ⟨a, b, a1, a2, b1, b2, rfl, rfl, rfl⟩ := spherical hn
  have hA := (orth_mz a).mul (orth_my b)
  rw [one_mul] at hA
  have hQ := (hA.transpose.mul hR).mul hA
  rw [one_mul, one_mul] at hQ
  obtain ⟨t, t1, t2, ht⟩ := fixes_z hQ (by
    rw [← mulVec_mulVec, ← mulVec_mulVec, to_axis, hf, from_axis])
  refine ⟨a, b, t, a1, a2, b1, b2, t1, t2, ?_⟩
  rw [← generalMatrix_rodrigues (Real.cos_sq_add_sin_sq a) (Real.cos_sq_add_sin_sq b)]
  change R = mz a * my b * mz t * (my b)ᵀ * (mz a)ᵀ
  rw [← ht, Matrix.mul_assoc _ (my b)ᵀ, ← transpose_mul]
  calc R = ((mz a * my b) * (mz a * my b)ᵀ) * R * ((mz a * my b) * (mz a * my b)ᵀ) := by
        rw [hA.1, Matrix.one_mul, Matrix.mul_one]
    _ = _ := by simp only [Matrix.mul_assoc]

theorem rodrigues_eq_iff {x y z x' y' z' t t' : ℝ} (h : x ^ 2 + y ^ 2 + z ^ 2 = 1)
    (h' : x' ^ 2 + y' ^ 2 + z' ^ 2 = 1) :
    rodrigues x y z t = rodrigues x' y' z' t' ↔
      Real.cos t = Real.cos t' ∧ (Real.cos t = 1 ∨
        (x = x' ∧ y = y' ∧ z = z' ∧ Real.sin t = Real.sin t') ∨
        (x = -x' ∧ y = -y' ∧ z = -z' ∧ Real.sin t = -Real.sin t')) := by
  have e : ∀ x y z t, rodrigues x y z t =
      !![Real.cos t + (1 - Real.cos t) * (x * x), -(Real.sin t * z) + (1 - Real.cos t) * (x * y),
          Real.sin t * y + (1 - Real.cos t) * (x * z);
        Real.sin t * z + (1 - Real.cos t) * (y * x), Real.cos t + (1 - Real.cos t) * (y * y),
          -(Real.sin t * x) + (1 - Real.cos t) * (y * z);
        -(Real.sin t * y) + (1 - Real.cos t) * (z * x), Real.sin t * x + (1 - Real.cos t) * (z * y),
          Real.cos t + (1 - Real.cos t) * (z * z)] := by
    intro x y z t
    unfold rodrigues
    ext i j
    fin_cases i <;> fin_cases j <;> simp
  have sc := Real.sin_sq_add_cos_sq t
  have sc' := Real.sin_sq_add_cos_sq t'
  rw [e, e]
  generalize Real.cos t = c, Real.sin t = s, Real.cos t' = c', Real.sin t' = s' at sc sc' ⊢
  constructor
  · intro hm
    have m : ∀ i j, _ := fun i j => congrFun (congrFun hm i) j
    have m00 := m 0 0
    have m01 := m 0 1
    have m02 := m 0 2
    have m10 := m 1 0
    have m11 := m 1 1
    have m12 := m 1 2
    have m20 := m 2 0
    have m21 := m 2 1
    have m22 := m 2 2
    simp at m00 m01 m02 m10 m11 m12 m20 m21 m22
    have hc : c = c' := by
      have : 1 + 2 * c = 1 + 2 * c' := by
        linear_combination m00 + m11 + m22 - (1 - c) * h + (1 - c') * h'
      linarith
    subst hc
    refine ⟨rfl, ?_⟩
    have sx : s * x = s' * x' := by linarith
    have sy : s * y = s' * y' := by linarith
    have sz : s * z = s' * z' := by linarith
    by_cases h1 : c = 1
    · exact Or.inl h1
    right
    have hs2 : s ^ 2 = s' ^ 2 := by linarith
    by_cases hs0 : s = 0
    · -- the axes agree up to sign
      subst hs0
      have hs' : s' = 0 := by nlinarith
      subst hs'
      have hc1 : (1 - c) ≠ 0 := sub_ne_zero.2 (Ne.symm h1)
      have p00 : x * x = x' * x' := mul_left_cancel₀ hc1 (by linarith)
      have p01 : x * y = x' * y' := mul_left_cancel₀ hc1 (by linarith)
      have p02 : x * z = x' * z' := mul_left_cancel₀ hc1 (by linarith)
      have p11 : y * y = y' * y' := mul_left_cancel₀ hc1 (by linarith)
      have p12 : y * z = y' * z' := mul_left_cancel₀ hc1 (by linarith)
      have p22 : z * z = z' * z' := mul_left_cancel₀ hc1 (by linarith)
      have hd : (x * x' + y * y' + z * z') ^ 2 = 1 := by
        have e1 : (x * x' + y * y' + z * z') ^ 2 = (x * x) * (x' * x') + (y * y) * (y' * y') + (z * z) * (z' * z') +
          2 * ((x * y) * (x' * y') + (x * z) * (x' * z') + (y * z) * (y' * z')) := by ring
        rw [e1, p00, p01, p02, p11, p12, p22]
        have : (x' ^ 2 + y' ^ 2 + z' ^ 2) ^ 2 = 1 := by rw [h']; norm_num
        linarith
      rcases (show _ = (1 : ℝ) ∨ _ = (-1 : ℝ) from sq_eq_sq_iff_eq_or_eq_neg.1 (hd.trans (one_pow 2).symm)) with hd | hd
      · left
        have hz : (x - x') ^ 2 + (y - y') ^ 2 + (z - z') ^ 2 = 0 := by linear_combination h + h' - 2 * hd
        have a1 := sq_nonneg (x - x')
        have a2 := sq_nonneg (y - y')
        have a3 := sq_nonneg (z - z')
        exact ⟨sub_eq_zero.1 (pow_eq_zero_iff two_ne_zero |>.1 (by linarith)),
          sub_eq_zero.1 (pow_eq_zero_iff two_ne_zero |>.1 (by linarith)),
          sub_eq_zero.1 (pow_eq_zero_iff two_ne_zero |>.1 (by linarith)), rfl⟩
      · right
        have hz : (x + x') ^ 2 + (y + y') ^ 2 + (z + z') ^ 2 = 0 := by linear_combination h + h' + 2 * hd
        have a1 := sq_nonneg (x + x')
        have a2 := sq_nonneg (y + y')
        have a3 := sq_nonneg (z + z')
        exact ⟨eq_neg_of_add_eq_zero_left (pow_eq_zero_iff two_ne_zero |>.1 (by linarith)),
          eq_neg_of_add_eq_zero_left (pow_eq_zero_iff two_ne_zero |>.1 (by linarith)),
          eq_neg_of_add_eq_zero_left (pow_eq_zero_iff two_ne_zero |>.1 (by linarith)), neg_zero.symm⟩
    · rcases sq_eq_sq_iff_eq_or_eq_neg.1 hs2 with rfl | hs
      · left
        exact ⟨mul_left_cancel₀ hs0 sx, mul_left_cancel₀ hs0 sy, mul_left_cancel₀ hs0 sz, rfl⟩
      · right
        have hs3 : s' = -s := by linarith
        rw [hs3] at sx sy sz
        exact ⟨mul_left_cancel₀ hs0 (by linarith), mul_left_cancel₀ hs0 (by linarith),
          mul_left_cancel₀ hs0 (by linarith), hs⟩
  · rintro ⟨rfl, h1 | ⟨rfl, rfl, rfl, rfl⟩ | ⟨rfl, rfl, rfl, rfl⟩⟩
    · subst h1
      have : s = 0 := by nlinarith
      have : s' = 0 := by nlinarith
      subst_vars
      simp
    · rfl
    · simp

end Verif.Rot
