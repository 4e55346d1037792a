import Verif.Props.SpinSymmetry
import Mathlib.Tactic.Module
import Mathlib.Tactic.LinearCombination
/-! Bounds on the mean total spin. -/

namespace Verif
open Spec

section
variable {d : ℕ}

theorem expectation_adj_nonneg (A : Matrix (Fin d) (Fin d) ℂ) (v : Fin d → ℂ) :
    0 ≤ (expectation (A.conjTranspose * A) v).re := by
  unfold expectation
  have h : dotProduct (star v) ((A.conjTranspose * A).mulVec v) =
      dotProduct (star (A.mulVec v)) (A.mulVec v) := by
    rw [Matrix.star_mulVec, ← Matrix.dotProduct_mulVec, Matrix.mulVec_mulVec]
  rw [h]
  obtain ⟨h1, h2⟩ := norm_im d v
  obtain ⟨h3, h4⟩ := norm_im d (A.mulVec v)
  rw [Complex.div_re, h1, h3]
  simp only [mul_zero, zero_div, add_zero]
  exact div_nonneg (mul_nonneg h4 h2) (Complex.normSq_nonneg _)

theorem expectation_one (v : Fin d → ℂ) (hv : v ≠ 0) : expectation 1 v = 1 := by
  unfold expectation
  rw [Matrix.one_mulVec]
  apply div_self
  intro h
  apply hv
  have hs : ∑ i, ‖v i‖ ^ 2 = 0 := by
    have := congrArg Complex.re h
    simpa only [dotProduct, Complex.re_sum, Pi.star_apply, Complex.star_def, Complex.conj_mul',
      ← Complex.ofReal_pow, Complex.ofReal_re, Complex.zero_re] using this
  funext i
  have := (Finset.sum_eq_zero_iff_of_nonneg fun _ _ => by positivity).mp hs i (Finset.mem_univ i)
  simpa using this

theorem expectation_sum {ι : Type*} (s : Finset ι) (f : ι → Matrix (Fin d) (Fin d) ℂ) (v : Fin d → ℂ) :
    expectation (∑ i ∈ s, f i) v = ∑ i ∈ s, expectation (f i) v := by
  classical
  induction s using Finset.induction_on with
  | empty => simp [expectation]
  | insert a s ha ih => rw [Finset.sum_insert ha, Finset.sum_insert ha, expectation_add, ih]

/-- a real linear combination of three matrices -/
def spinComb (u : Fin 3 → ℝ) (X Y Z : Matrix (Fin d) (Fin d) ℂ) : Matrix (Fin d) (Fin d) ℂ :=
  (u 0 : ℂ) • X + (u 1 : ℂ) • Y + (u 2 : ℂ) • Z

theorem spinComb_adj (u : Fin 3 → ℝ) {X Y Z : Matrix (Fin d) (Fin d) ℂ} (hX : X.conjTranspose = X)
    (hY : Y.conjTranspose = Y) (hZ : Z.conjTranspose = Z) :
    (spinComb u X Y Z).conjTranspose = spinComb u X Y Z := by
  simp [spinComb, Matrix.conjTranspose_add, Matrix.conjTranspose_smul, hX, hY, hZ]

/-- the quadratic form of the second moments -/
noncomputable def quad (u : Fin 3 → ℝ) (X Y Z : Matrix (Fin d) (Fin d) ℂ) (v : Fin d → ℂ) : ℝ :=
  u 0 ^ 2 * (expectation (X * X) v).re + u 1 ^ 2 * (expectation (Y * Y) v).re +
  u 2 ^ 2 * (expectation (Z * Z) v).re + u 0 * u 1 * (expectation (X * Y + Y * X) v).re +
  u 1 * u 2 * (expectation (Y * Z + Z * Y) v).re + u 2 * u 0 * (expectation (Z * X + X * Z) v).re

theorem spinComb_sq (u : Fin 3 → ℝ) (X Y Z : Matrix (Fin d) (Fin d) ℂ) (v : Fin d → ℂ) :
    (expectation (spinComb u X Y Z * spinComb u X Y Z) v).re = quad u X Y Z v := by
  have : spinComb u X Y Z * spinComb u X Y Z = ((u 0 ^ 2 : ℝ) : ℂ) • (X * X) + ((u 1 ^ 2 : ℝ) : ℂ) • (Y * Y) +
      ((u 2 ^ 2 : ℝ) : ℂ) • (Z * Z) + ((u 0 * u 1 : ℝ) : ℂ) • (X * Y + Y * X) +
      ((u 1 * u 2 : ℝ) : ℂ) • (Y * Z + Z * Y) + ((u 2 * u 0 : ℝ) : ℂ) • (Z * X + X * Z) := by
    simp only [spinComb, add_mul, mul_add, smul_mul_assoc, mul_smul_comm]
    push_cast
    module
  rw [this]
  simp only [expectation_add, expectation_smul, Complex.add_re, Complex.re_ofReal_mul, quad]

/-- variance of a component is not negative -/
theorem quad_ge (u : Fin 3 → ℝ) {X Y Z : Matrix (Fin d) (Fin d) ℂ} (hX : X.conjTranspose = X)
    (hY : Y.conjTranspose = Y) (hZ : Z.conjTranspose = Z) (v : Fin d → ℂ) (hv : v ≠ 0) :
    (u 0 * (expectation X v).re + u 1 * (expectation Y v).re + u 2 * (expectation Z v).re) ^ 2 ≤
      quad u X Y Z v := by
  set m : ℝ := u 0 * (expectation X v).re + u 1 * (expectation Y v).re + u 2 * (expectation Z v).re with hm
  have h := expectation_adj_nonneg (spinComb u X Y Z + ((-m : ℝ) : ℂ) • 1) v
  rw [Matrix.conjTranspose_add, spinComb_adj u hX hY hZ, Matrix.conjTranspose_smul,
    Matrix.conjTranspose_one, Complex.star_def, Complex.conj_ofReal] at h
  have e : (spinComb u X Y Z + ((-m : ℝ) : ℂ) • 1) * (spinComb u X Y Z + ((-m : ℝ) : ℂ) • 1) =
      spinComb u X Y Z * spinComb u X Y Z + ((-(2 * m) : ℝ) : ℂ) • spinComb u X Y Z + ((m ^ 2 : ℝ) : ℂ) • 1 := by
    simp only [add_mul, mul_add, smul_mul_assoc, mul_smul_comm, mul_one, one_mul]
    push_cast
    module
  rw [e, expectation_add, expectation_add, expectation_smul, expectation_smul, expectation_one v hv,
    Complex.add_re, Complex.add_re, spinComb_sq, Complex.re_ofReal_mul, mul_one, Complex.ofReal_re] at h
  have e2 : (expectation (spinComb u X Y Z) v).re = m := by
    simp only [spinComb, expectation_add, expectation_smul, Complex.add_re, Complex.re_ofReal_mul, hm]
  rw [e2] at h
  nlinarith

theorem quad_pair (u w : Fin 3 → ℝ) {X Y Z : Matrix (Fin d) (Fin d) ℂ} (hX : X.conjTranspose = X)
    (hY : Y.conjTranspose = Y) (hZ : Z.conjTranspose = Z)
    (hxy : X * Y - Y * X = Complex.I • Z) (hyz : Y * Z - Z * Y = Complex.I • X)
    (hzx : Z * X - X * Z = Complex.I • Y) (v : Fin d → ℂ) :
    (u 1 * w 2 - u 2 * w 1) * (expectation X v).re + (u 2 * w 0 - u 0 * w 2) * (expectation Y v).re +
      (u 0 * w 1 - u 1 * w 0) * (expectation Z v).re ≤ quad u X Y Z v + quad w X Y Z v := by
  have h := expectation_adj_nonneg (spinComb u X Y Z + Complex.I • spinComb w X Y Z) v
  rw [Matrix.conjTranspose_add, spinComb_adj u hX hY hZ, Matrix.conjTranspose_smul,
    spinComb_adj w hX hY hZ, Complex.star_def, Complex.conj_I] at h
  have hc : spinComb u X Y Z * spinComb w X Y Z - spinComb w X Y Z * spinComb u X Y Z =
      ((u 0 * w 1 - u 1 * w 0 : ℝ) : ℂ) • (X * Y - Y * X) +
      ((u 1 * w 2 - u 2 * w 1 : ℝ) : ℂ) • (Y * Z - Z * Y) +
      ((u 2 * w 0 - u 0 * w 2 : ℝ) : ℂ) • (Z * X - X * Z) := by
    simp only [spinComb, add_mul, mul_add, smul_mul_assoc, mul_smul_comm]
    push_cast
    module
  rw [hxy, hyz, hzx] at hc
  have e : (spinComb u X Y Z + -Complex.I • spinComb w X Y Z) * (spinComb u X Y Z + Complex.I • spinComb w X Y Z) =
      spinComb u X Y Z * spinComb u X Y Z + spinComb w X Y Z * spinComb w X Y Z +
      Complex.I • (spinComb u X Y Z * spinComb w X Y Z - spinComb w X Y Z * spinComb u X Y Z) := by
    have h1 : (-Complex.I) • Complex.I • (spinComb w X Y Z * spinComb w X Y Z) = spinComb w X Y Z * spinComb w X Y Z := by
      rw [smul_smul, neg_mul, Complex.I_mul_I, neg_neg, one_smul]
    simp only [add_mul, mul_add, smul_mul_assoc, mul_smul_comm]
    rw [smul_add, smul_comm Complex.I (-Complex.I), h1]
    module
  rw [e, hc] at h
  have e3 : Complex.I • (((u 0 * w 1 - u 1 * w 0 : ℝ) : ℂ) • Complex.I • Z +
      ((u 1 * w 2 - u 2 * w 1 : ℝ) : ℂ) • Complex.I • X +
      ((u 2 * w 0 - u 0 * w 2 : ℝ) : ℂ) • Complex.I • Y) =
      ((-(u 0 * w 1 - u 1 * w 0) : ℝ) : ℂ) • Z + ((-(u 1 * w 2 - u 2 * w 1) : ℝ) : ℂ) • X +
      ((-(u 2 * w 0 - u 0 * w 2) : ℝ) : ℂ) • Y := by
    have hI : ∀ c : ℝ, Complex.I * ((c : ℂ) * Complex.I) = ((-c : ℝ) : ℂ) := by
      intro c
      push_cast
      linear_combination (c : ℂ) * Complex.I_mul_I
    simp only [smul_add, smul_smul, hI]
  rw [e3] at h
  simp only [expectation_add, expectation_smul, Complex.add_re, Complex.re_ofReal_mul, spinComb_sq] at h
  linarith

theorem moment_lower {X Y Z : Matrix (Fin d) (Fin d) ℂ} (hX : X.conjTranspose = X)
    (hY : Y.conjTranspose = Y) (hZ : Z.conjTranspose = Z)
    (hxy : X * Y - Y * X = Complex.I • Z) (hyz : Y * Z - Z * Y = Complex.I • X)
    (hzx : Z * X - X * Z = Complex.I • Y) (v : Fin d → ℂ) (hv : v ≠ 0) (r : ℝ) (hr : 0 ≤ r)
    (hm : r ^ 2 = (expectation X v).re ^ 2 + (expectation Y v).re ^ 2 + (expectation Z v).re ^ 2) :
    r * (r + 1) ≤ (expectation (X * X + Y * Y + Z * Z) v).re := by
  simp only [expectation_add, Complex.add_re]
  rcases hr.eq_or_lt with rfl | hr
  · have := expectation_sq_nonneg _ hX v
    have := expectation_sq_nonneg _ hY v
    have := expectation_sq_nonneg _ hZ v
    linarith
  · set a := (expectation X v).re with ha
    set b := (expectation Y v).re with hb
    set c := (expectation Z v).re with hc
    obtain ⟨p, hp⟩ : ∃ p, p = a / r := ⟨_, rfl⟩
    obtain ⟨q, hq⟩ : ∃ q, q = b / r := ⟨_, rfl⟩
    obtain ⟨s, hs⟩ : ∃ s, s = c / r := ⟨_, rfl⟩
    have ea : a = p * r := by rw [hp]; field_simp
    have eb : b = q * r := by rw [hq]; field_simp
    have ec : c = s * r := by rw [hs]; field_simp
    have hn : p ^ 2 + q ^ 2 + s ^ 2 = 1 := by
      have : r ^ 2 * (p ^ 2 + q ^ 2 + s ^ 2) = r ^ 2 * 1 := by
        rw [ea, eb, ec] at hm
        linear_combination -hm
      exact mul_left_cancel₀ (by positivity) this
    have h0 := quad_ge ![p, q, s] hX hY hZ v hv
    have h1 := quad_pair ![1 - p * p, - (p * q), - (p * s)] ![0, s, -q] hX hY hZ hxy hyz hzx v
    have h2 := quad_pair ![- (q * p), 1 - q * q, - (q * s)] ![-s, 0, p] hX hY hZ hxy hyz hzx v
    have h3 := quad_pair ![- (s * p), - (s * q), 1 - s * s] ![q, -p, 0] hX hY hZ hxy hyz hzx v
    simp only [quad, Matrix.cons_val, ← ha, ← hb, ← hc] at h0 h1 h2 h3
    rw [ea, eb, ec] at h0 h1 h2 h3
    have e0 : (p * (p * r) + q * (q * r) + s * (s * r)) ^ 2 = r ^ 2 := by
      have : p * (p * r) + q * (q * r) + s * (s * r) = r := by linear_combination r * hn
      rw [this]
    rw [e0] at h0
    generalize (expectation (X * X) v).re = xx at *
    generalize (expectation (Y * Y) v).re = yy at *
    generalize (expectation (Z * Z) v).re = zz at *
    generalize (expectation (X * Y + Y * X) v).re = xy at *
    generalize (expectation (Y * Z + Z * Y) v).re = yz at *
    generalize (expectation (Z * X + X * Z) v).re = zx at *
    have hs := add_le_add (add_le_add h1 h2) h3
    set Q := p ^ 2 * xx + q ^ 2 * yy + s ^ 2 * zz + p * q * xy + q * s * yz + s * p * zx with hQ
    have hR : 2 * (xx + yy + zz) - 2 * Q - 2 * r ≥ 0 := by
      refine le_of_le_of_eq (sub_nonneg.mpr hs) ?_
      rw [hQ]
      linear_combination (xx + yy + zz + (p ^ 2 * xx + q ^ 2 * yy + s ^ 2 * zz + p * q * xy + q * s * yz + s * p * zx) - 2 * r) * hn
    nlinarith

end

/-- the scalar product of the spins at `i` and `j` -/
noncomputable def dotOp (n i j : ℕ) : Matrix (Fin (2 ^ n)) (Fin (2 ^ n)) ℂ :=
  siteOp n i (spinHalf .x) * siteOp n j (spinHalf .x) + siteOp n i (spinHalf .y) * siteOp n j (spinHalf .y) +
  siteOp n i (spinHalf .z) * siteOp n j (spinHalf .z)

theorem half_sq (o : SpinOtype) (ho : o ∈ [SpinOtype.x, .y, .z]) : spinHalf o * spinHalf o = (1 / 4 : ℂ) • 1 := by
  have h : Complex.I * Complex.I = -1 := Complex.I_mul_I
  simp only [List.mem_cons, List.not_mem_nil, or_false] at ho
  rcases ho with rfl | rfl | rfl <;> ext r c <;> fin_cases r <;> fin_cases c <;> simp [spinHalf] <;>
    first | linear_combination (-1/4 : ℂ) * h | norm_num

theorem half_prod : spinHalf .x * spinHalf .y = (Complex.I / 2) • spinHalf .z ∧
    spinHalf .y * spinHalf .x = (-(Complex.I / 2)) • spinHalf .z ∧
    spinHalf .y * spinHalf .z = (Complex.I / 2) • spinHalf .x ∧
    spinHalf .z * spinHalf .y = (-(Complex.I / 2)) • spinHalf .x ∧
    spinHalf .z * spinHalf .x = (Complex.I / 2) • spinHalf .y ∧
    spinHalf .x * spinHalf .z = (-(Complex.I / 2)) • spinHalf .y := by
  have h : Complex.I * Complex.I = -1 := Complex.I_mul_I
  refine ⟨?_, ?_, ?_, ?_, ?_, ?_⟩ <;> ext r c <;> fin_cases r <;> fin_cases c <;> simp [spinHalf] <;>
    first | ring1 | linear_combination (1/4 : ℂ) * h | linear_combination (-1/4 : ℂ) * h

theorem dotOp_self (n i : ℕ) (hi : i < n) : dotOp n i i = (3 / 4 : ℂ) • 1 := by
  unfold dotOp
  rw [siteOp_mul _ _ hi, siteOp_mul _ _ hi, siteOp_mul _ _ hi, half_sq .x (by simp), half_sq .y (by simp),
    half_sq .z (by simp), siteOp_smul, siteOp_one _ _ hi]
  module

theorem dotOp_sq (n i j : ℕ) (hi : i < n) (hj : j < n) (hij : i ≠ j) :
    dotOp n i j * dotOp n i j = (3 / 16 : ℂ) • 1 + (-(1 / 2) : ℂ) • dotOp n i j := by
  have hc : ∀ A B C D : Matrix (Fin 2) (Fin 2) ℂ,
      siteOp n i A * siteOp n j B * (siteOp n i C * siteOp n j D) =
        siteOp n i (A * C) * siteOp n j (B * D) := by
    intro A B C D
    rw [← siteOp_mul _ _ hi, ← siteOp_mul _ _ hj, mul_assoc, ← mul_assoc (siteOp n j B),
      (siteOp_comm n j i hj hi hij.symm B C).eq]
    simp only [mul_assoc]
  obtain ⟨h1, h2, h3, h4, h5, h6⟩ := half_prod
  have hI : (Complex.I / 2) * (Complex.I / 2) = -(1 / 4) := by
    linear_combination (1 / 4 : ℂ) * Complex.I_mul_I
  unfold dotOp
  simp only [add_mul, mul_add, hc, h1, h2, h3, h4, h5, h6, half_sq .x (by simp), half_sq .y (by simp),
    half_sq .z (by simp), siteOp_smul, siteOp_one _ _ hi, siteOp_one _ _ hj, smul_mul_assoc, mul_smul_comm,
    smul_smul, neg_mul, mul_neg, neg_neg, hI, mul_one]
  module

theorem dotOp_adj (n i j : ℕ) (hi : i < n) (hj : j < n) (hij : i ≠ j) :
    (dotOp n i j).conjTranspose = dotOp n i j := by
  have h : ∀ o ∈ [SpinOtype.x, .y, .z], (spinHalf o).conjTranspose = spinHalf o := by
    intro o ho
    simp only [List.mem_cons, List.not_mem_nil, or_false] at ho
    rcases ho with rfl | rfl | rfl <;> ext r c <;> fin_cases r <;> fin_cases c <;> simp [spinHalf]
  unfold dotOp
  simp only [Matrix.conjTranspose_add, Matrix.conjTranspose_mul, siteOp_conjTranspose, h .x (by simp),
    h .y (by simp), h .z (by simp)]
  rw [(siteOp_comm n j i hj hi hij.symm _ _).eq, (siteOp_comm n j i hj hi hij.symm _ _).eq,
    (siteOp_comm n j i hj hi hij.symm _ _).eq]

/-- two different spins: `S_i . S_j <= 1/4` -/
theorem dotOp_le (n i j : ℕ) (hi : i < n) (hj : j < n) (hij : i ≠ j) (v : Fin (2 ^ n) → ℂ) (hv : v ≠ 0) :
    (expectation (dotOp n i j) v).re ≤ 1 / 4 := by
  have h := expectation_adj_nonneg (((1 / 4 : ℝ) : ℂ) • 1 + ((-1 : ℝ) : ℂ) • dotOp n i j) v
  rw [Matrix.conjTranspose_add, Matrix.conjTranspose_smul, Matrix.conjTranspose_smul,
    Matrix.conjTranspose_one, dotOp_adj n i j hi hj hij, Complex.star_def, Complex.conj_ofReal,
    Complex.conj_ofReal] at h
  have e : (((1 / 4 : ℝ) : ℂ) • 1 + ((-1 : ℝ) : ℂ) • dotOp n i j) *
      (((1 / 4 : ℝ) : ℂ) • 1 + ((-1 : ℝ) : ℂ) • dotOp n i j) =
      ((1 / 4 : ℝ) : ℂ) • 1 + ((-1 : ℝ) : ℂ) • dotOp n i j := by
    simp only [add_mul, mul_add, smul_mul_assoc, mul_smul_comm, mul_one, one_mul,
      dotOp_sq n i j hi hj hij]
    push_cast
    module
  rw [e, expectation_add, expectation_smul, expectation_smul, expectation_one v hv, mul_one, Complex.add_re,
    Complex.re_ofReal_mul, Complex.ofReal_re] at h
  linarith

theorem total_dot (n : ℤ) : totalSpin n .x * totalSpin n .x + totalSpin n .y * totalSpin n .y +
      totalSpin n .z * totalSpin n .z =
    ∑ i ∈ Finset.range n.toNat, ∑ j ∈ Finset.range n.toNat, dotOp n.toNat i j := by
  simp only [totalSpin_eq, Finset.sum_mul_sum, ← Finset.sum_add_distrib, dotOp]

theorem moment_upper (n : ℤ) (hn : 0 ≤ n) (v : Fin (2 ^ n.toNat) → ℂ) (hv : v ≠ 0) :
    (expectation (totalSpin n .x * totalSpin n .x + totalSpin n .y * totalSpin n .y +
      totalSpin n .z * totalSpin n .z) v).re ≤ (n : ℝ) / 2 * (n / 2 + 1) := by
  rw [total_dot, expectation_sum, Complex.re_sum]
  have hN : ((n.toNat : ℕ) : ℝ) = n := by
    have : ((n.toNat : ℕ) : ℤ) = n := Int.toNat_of_nonneg hn
    exact_mod_cast congrArg (Int.cast : ℤ → ℝ) this
  have hrow : ∀ i ∈ Finset.range n.toNat,
      (expectation (∑ j ∈ Finset.range n.toNat, dotOp n.toNat i j) v).re ≤ (n : ℝ) / 4 + 1 / 2 := by
    intro i hi
    have hi' := Finset.mem_range.mp hi
    rw [expectation_sum, Complex.re_sum]
    calc _ ≤ ∑ j ∈ Finset.range n.toNat, ((1 / 4 : ℝ) + if j = i then 1 / 2 else 0) := by
          apply Finset.sum_le_sum
          intro j hj
          by_cases h : j = i
          · subst h
            rw [if_pos rfl, dotOp_self _ _ hi', expectation_smul, expectation_one v hv]
            norm_num
          · rw [if_neg h, add_zero]
            exact dotOp_le _ _ _ hi' (Finset.mem_range.mp hj) (fun e => h e.symm) v hv
      _ = (n : ℝ) / 4 + 1 / 2 := by
          rw [Finset.sum_add_distrib, Finset.sum_const, Finset.card_range, Finset.sum_ite_eq' , if_pos hi,
            nsmul_eq_mul, hN]
          ring
  calc _ ≤ ∑ i ∈ Finset.range n.toNat, ((n : ℝ) / 4 + 1 / 2) := Finset.sum_le_sum hrow
    _ = _ := by
      rw [Finset.sum_const, Finset.card_range, nsmul_eq_mul, hN]
      ring

end Verif
