import Mathlib.Analysis.CStarAlgebra.Matrix
import Mathlib.Analysis.Normed.Ring.Units
import Mathlib.LinearAlgebra.Matrix.Hermitian
import Mathlib.LinearAlgebra.Matrix.NonsingularInverse
import Mathlib.LinearAlgebra.Matrix.ToLin
import Mathlib.Tactic.Positivity
import Mathlib.Tactic.Linarith
import Mathlib.Tactic.NoncommRing
/-!
# Lemmas for C92, C93: compressed resolvents and cluster perturbation theory
-/

namespace Verif.Cpt

open Matrix
open scoped Matrix.Norms.L2Operator

variable {ι κ : Type} [Fintype ι] [DecidableEq ι] [Fintype κ] [DecidableEq κ]

/-- The Euclidean norm. -/
noncomputable def nrm (x : ι → ℂ) : ℝ := ‖WithLp.toLp 2 x‖

omit [DecidableEq ι] in
theorem nrm_nonneg (x : ι → ℂ) : 0 ≤ nrm x := norm_nonneg _

omit [DecidableEq ι] in
theorem nrm_sq (x : ι → ℂ) : nrm x ^ 2 = ∑ i, ‖x i‖ ^ 2 := by
  unfold nrm
  rw [EuclideanSpace.norm_sq_eq]

omit [DecidableEq ι] in
theorem nrm_eq_zero {x : ι → ℂ} (h : nrm x = 0) : x = 0 := by
  unfold nrm at h
  rw [norm_eq_zero] at h
  exact congrArg WithLp.ofLp h

omit [DecidableEq ι] in
theorem dot_self (x : ι → ℂ) : star x ⬝ᵥ x = ((nrm x ^ 2 : ℝ) : ℂ) := by
  rw [nrm_sq, dotProduct]
  push_cast
  refine Finset.sum_congr rfl fun i _ => ?_
  rw [Pi.star_apply, ← Complex.conj_mul']
  rfl

omit [DecidableEq ι] in
theorem dot_le (x y : ι → ℂ) : ‖star x ⬝ᵥ y‖ ≤ nrm x * nrm y := by
  have := norm_inner_le_norm (𝕜 := ℂ) (WithLp.toLp 2 x) (WithLp.toLp 2 y)
  rw [EuclideanSpace.inner_eq_star_dotProduct, dotProduct_comm] at this
  exact this

omit [DecidableEq κ] in
theorem mulVec_le (A : Matrix κ ι ℂ) (x : ι → ℂ) : nrm (A *ᵥ x) ≤ ‖A‖ * nrm x :=
  l2_opNorm_mulVec A (WithLp.toLp 2 x)

omit [DecidableEq κ] in
theorem opNorm_le {A : Matrix κ ι ℂ} {c : ℝ} (hc : 0 ≤ c) (h : ∀ x, nrm (A *ᵥ x) ≤ c * nrm x) : ‖A‖ ≤ c := by
  rw [l2_opNorm_def]
  exact ContinuousLinearMap.opNorm_le_bound _ hc fun x => h x.ofLp

theorem norm_one_le : ‖(1 : Matrix ι ι ℂ)‖ ≤ 1 := by
  refine opNorm_le zero_le_one fun x => ?_
  rw [one_mulVec, one_mul]

/-- Every `x` with its image `A x` satisfies `eta |A x|^2 <= - Im <x, A x>`. -/
def Dissipative (A : Matrix ι ι ℂ) (eta : ℝ) : Prop :=
  ∀ x, eta * nrm (A *ᵥ x) ^ 2 ≤ -(star x ⬝ᵥ (A *ᵥ x)).im

omit [DecidableEq ι] in
theorem Dissipative.bound {A : Matrix ι ι ℂ} {eta : ℝ} (h : Dissipative A eta) (he : 0 < eta) (x : ι → ℂ) :
    nrm (A *ᵥ x) ≤ 1 / eta * nrm x := by
  have h1 := h x
  have h2 : -(star x ⬝ᵥ (A *ᵥ x)).im ≤ nrm x * nrm (A *ᵥ x) :=
    (neg_le_abs _).trans ((Complex.abs_im_le_norm _).trans (dot_le _ _))
  rcases (nrm_nonneg (A *ᵥ x)).eq_or_lt with h0 | h0
  · rw [← h0]
    have := nrm_nonneg x
    positivity
  · have : eta * nrm (A *ᵥ x) ≤ nrm x := by
      refine le_of_mul_le_mul_right ?_ h0
      nlinarith
    rw [div_mul_eq_mul_div, one_mul, le_div_iff₀ he]
    linarith

theorem Dissipative.norm_le {A : Matrix ι ι ℂ} {eta : ℝ} (h : Dissipative A eta) (he : 0 < eta) : ‖A‖ ≤ 1 / eta :=
  opNorm_le (by positivity) (h.bound he)

omit [DecidableEq ι] [DecidableEq κ] in
theorem dot_adj (A : Matrix κ ι ℂ) (x : κ → ℂ) (y : ι → ℂ) : star x ⬝ᵥ (A *ᵥ y) = star (Aᴴ *ᵥ x) ⬝ᵥ y := by
  rw [star_mulVec, conjTranspose_conjTranspose, dotProduct_mulVec]

omit [DecidableEq ι] in
theorem herm_im {V : Matrix ι ι ℂ} (hV : V.IsHermitian) (x : ι → ℂ) : (star x ⬝ᵥ (V *ᵥ x)).im = 0 := by
  have h : star (star x ⬝ᵥ (V *ᵥ x)) = star x ⬝ᵥ (V *ᵥ x) := by
    rw [← star_dotProduct, dot_adj, hV.eq]
  have := congrArg Complex.im h
  simp at this
  linarith

theorem isUnit_of_inj {A : Matrix ι ι ℂ} (h : ∀ x, A *ᵥ x = 0 → x = 0) : IsUnit A :=
  Matrix.mulVec_injective_iff_isUnit.1 fun x y hxy => by
    have := h (x - y) (by rw [mulVec_sub]; exact sub_eq_zero.2 hxy)
    exact sub_eq_zero.1 this


/-- `eta |y|^2 <= - Im <(G^-1 - V) y, y>` for dissipative `G` and Hermitian `V`. -/
theorem Dissipative.inverse {G V : Matrix ι ι ℂ} {eta : ℝ} (h : Dissipative G eta) (hG : IsUnit G)
    (hV : V.IsHermitian) (y : ι → ℂ) : eta * nrm y ^ 2 ≤ -(star ((G⁻¹ - V) *ᵥ y) ⬝ᵥ y).im := by
  have hdet := (isUnit_iff_isUnit_det G).1 hG
  have h1 := h (G⁻¹ *ᵥ y)
  rw [mulVec_mulVec, mul_nonsing_inv _ hdet, one_mulVec] at h1
  have h2 : (star (V *ᵥ y) ⬝ᵥ y).im = 0 := by
    have := herm_im hV y
    rwa [dot_adj, hV.eq] at this
  rw [sub_mulVec, star_sub, sub_dotProduct, Complex.sub_im, h2, sub_zero]
  exact h1

theorem Dissipative.isUnit {G V : Matrix ι ι ℂ} {eta : ℝ} (h : Dissipative G eta) (he : 0 < eta) (hG : IsUnit G)
    (hV : V.IsHermitian) : IsUnit (G⁻¹ - V) := by
  refine isUnit_of_inj fun y hy => ?_
  have h1 := h.inverse hG hV y
  rw [hy, star_zero, zero_dotProduct, Complex.zero_im, neg_zero] at h1
  have h2 : nrm y ^ 2 ≤ 0 := by nlinarith [sq_nonneg (nrm y)]
  exact nrm_eq_zero (pow_eq_zero_iff (two_ne_zero) |>.1 (le_antisymm h2 (sq_nonneg _)))

/-- The perturbed Green function is dissipative again. -/
theorem Dissipative.cpt {G V : Matrix ι ι ℂ} {eta : ℝ} (h : Dissipative G eta) (he : 0 < eta) (hG : IsUnit G)
    (hV : V.IsHermitian) : Dissipative (G⁻¹ - V)⁻¹ eta := by
  intro x
  have hdet := (isUnit_iff_isUnit_det _).1 (h.isUnit he hG hV)
  have h1 := h.inverse hG hV ((G⁻¹ - V)⁻¹ *ᵥ x)
  rw [mulVec_mulVec, mul_nonsing_inv _ hdet, one_mulVec] at h1
  exact h1

/-- The stability of `(G^-1 - V)^-1`. -/
theorem cpt_stable {G D V : Matrix ι ι ℂ} {eta v ε : ℝ} (h : Dissipative G eta) (he : 0 < eta) (hG : IsUnit G)
    (hV : V.IsHermitian) (hv : ‖V‖ ≤ v) (hD : ‖D‖ ≤ ε) (h1 : ‖G⁻¹‖ * ε < 1) (h2 : v * ε * (1 + v / eta) ≤ 1 / 2) :
    IsUnit (G + D) ∧ IsUnit ((G + D)⁻¹ - V) ∧
      ‖((G + D)⁻¹ - V)⁻¹ - (G⁻¹ - V)⁻¹‖ ≤ 2 * ε * (1 + v / eta) ^ 2 := by
  have hε : 0 ≤ ε := (norm_nonneg _).trans hD
  have hv0 : 0 ≤ v := (norm_nonneg _).trans hv
  have hdet := (isUnit_iff_isUnit_det G).1 hG
  have hunit : IsUnit (G + D) := by
    have hx : ‖-(G⁻¹ * D)‖ < 1 := by
      rw [norm_neg]
      exact (norm_mul_le _ _).trans_lt ((mul_le_mul_of_nonneg_left hD (norm_nonneg _)).trans_lt h1)
    have hu := isUnit_one_sub_of_norm_lt_one hx
    have e : G + D = G * (1 - -(G⁻¹ * D)) := by
      rw [sub_neg_eq_add, mul_add, mul_one, ← mul_assoc, mul_nonsing_inv _ hdet, one_mul]
    rw [e]
    exact hG.mul hu
  have hdet' := (isUnit_iff_isUnit_det _).1 hunit
  have hPu := h.isUnit he hG hV
  have hPdet := (isUnit_iff_isUnit_det _).1 hPu
  set P := (G⁻¹ - V)⁻¹ with hP
  have hPn : ‖P‖ ≤ 1 / eta := (h.cpt he hG hV).norm_le he
  have hb : 0 ≤ 1 + v / eta := by positivity
  have hPV : ‖1 + P * V‖ ≤ 1 + v / eta := by
    refine (norm_add_le _ _).trans (add_le_add norm_one_le ((norm_mul_le _ _).trans ?_))
    rw [div_eq_mul_one_div, mul_comm v]
    exact mul_le_mul hPn hv (norm_nonneg _) (by positivity)
  have hVP : ‖1 + V * P‖ ≤ 1 + v / eta := by
    refine (norm_add_le _ _).trans (add_le_add norm_one_le ((norm_mul_le _ _).trans ?_))
    rw [div_eq_mul_one_div]
    exact mul_le_mul hv hPn (norm_nonneg _) hv0
  have hPinv : P * (G⁻¹ - V) = 1 := nonsing_inv_mul _ hPdet
  have hPinv' : (G⁻¹ - V) * P = 1 := mul_nonsing_inv _ hPdet
  have e1 : P * G⁻¹ = 1 + P * V := by
    rw [mul_sub, sub_eq_iff_eq_add] at hPinv
    exact hPinv
  have e2 : G⁻¹ * P = 1 + V * P := by
    rw [sub_mul, sub_eq_iff_eq_add] at hPinv'
    exact hPinv'
  -- the factor that has to be inverted
  set X := (1 + P * V) * D * V with hX
  have hXn : ‖X‖ ≤ 1 / 2 := by
    refine (norm_mul_le _ _).trans ((mul_le_mul (norm_mul_le _ _) hv (norm_nonneg _) (by positivity)).trans ?_)
    refine le_trans ?_ h2
    have := mul_le_mul hPV hD (norm_nonneg _) hb
    nlinarith
  have hXu : IsUnit (1 - X) := isUnit_one_sub_of_norm_lt_one (hXn.trans_lt (by norm_num))
  have hXdet := (isUnit_iff_isUnit_det _).1 hXu
  set Q := (1 - X)⁻¹ with hQ
  have hQ1 : Q * (1 - X) = 1 := nonsing_inv_mul _ hXdet
  have hQn : ‖Q‖ ≤ 2 := by
    have e : Q = 1 + Q * X := by
      rw [mul_sub, mul_one, sub_eq_iff_eq_add] at hQ1
      exact hQ1
    have : ‖Q‖ ≤ 1 + ‖Q‖ * (1 / 2) := by
      calc ‖Q‖ = ‖1 + Q * X‖ := by rw [← e]
        _ ≤ ‖(1 : Matrix ι ι ℂ)‖ + ‖Q * X‖ := norm_add_le _ _
        _ ≤ 1 + ‖Q‖ * (1 / 2) := add_le_add norm_one_le
          ((norm_mul_le _ _).trans (mul_le_mul_of_nonneg_left hXn (norm_nonneg _)))
    linarith
  have hGG : (G + D)⁻¹ * (G + D) = 1 := nonsing_inv_mul _ hdet'
  have hGi : G⁻¹ * G = 1 := nonsing_inv_mul _ hdet
  -- `(1 + P V) (1 - (G + D) V) = 1 - X`
  have e3 : (1 + P * V) * (1 - (G + D) * V) = 1 - X := by
    have e4 : (1 + P * V) * (1 - G * V) = 1 := by
      rw [← e1]
      have : P * G⁻¹ * (1 - G * V) = P * (G⁻¹ - V) := by
        rw [mul_assoc, mul_sub, mul_one, ← mul_assoc G⁻¹, hGi, one_mul]
      rw [this, hPinv]
    have e5 : 1 - (G + D) * V = 1 - G * V - D * V := by rw [add_mul, sub_sub]
    rw [e5, mul_sub, e4, hX, mul_assoc (1 + P * V)]
  have e5 : (Q * (1 + P * V)) * (1 - (G + D) * V) = 1 := by rw [mul_assoc, e3, hQ1]
  have e6 : (G + D)⁻¹ - V = (G + D)⁻¹ * (1 - (G + D) * V) := by
    rw [mul_sub, mul_one, ← mul_assoc, hGG, one_mul]
  have hu' : IsUnit (1 - (G + D) * V) := by
    rw [isUnit_iff_isUnit_det]
    exact isUnit_det_of_left_inverse e5
  have hGiu : IsUnit (G + D)⁻¹ := by
    rw [isUnit_nonsing_inv_iff]
    exact hunit
  have hP'u : IsUnit ((G + D)⁻¹ - V) := by rw [e6]; exact hGiu.mul hu'
  refine ⟨hunit, hP'u, ?_⟩
  have hP'det := (isUnit_iff_isUnit_det _).1 hP'u
  set P' := ((G + D)⁻¹ - V)⁻¹ with hP'
  have hP'inv : P' * ((G + D)⁻¹ - V) = 1 := nonsing_inv_mul _ hP'det
  have e7 : P' * (G + D)⁻¹ = Q * (1 + P * V) := by
    have a : P' * (G + D)⁻¹ * (1 - (G + D) * V) = 1 := by rw [mul_assoc, ← e6, hP'inv]
    have hdd := (isUnit_iff_isUnit_det _).1 hu'
    exact (Matrix.isUnit_iff_isUnit_det _).1 hu' |> fun _ => hu'.mul_right_cancel (a.trans e5.symm)
  have e8 : P' - P = Q * (1 + P * V) * D * (1 + V * P) := by
    have : (G + D)⁻¹ * D * G⁻¹ = G⁻¹ - (G + D)⁻¹ := by
      have a1 : (G + D)⁻¹ * D = 1 - (G + D)⁻¹ * G := by
        rw [eq_sub_iff_add_eq, ← mul_add, add_comm D G, hGG]
      rw [a1, sub_mul, one_mul, mul_assoc, mul_nonsing_inv _ hdet, mul_one]
    rw [← e7, ← e2, mul_assoc P', mul_assoc P', ← mul_assoc _ G⁻¹ P, this, ← mul_assoc]
    have : G⁻¹ - (G + D)⁻¹ = (G⁻¹ - V) - ((G + D)⁻¹ - V) := by abel
    rw [this, mul_sub, sub_mul, hP'inv, one_mul, mul_assoc, hPinv', mul_one]
  rw [e8]
  calc ‖Q * (1 + P * V) * D * (1 + V * P)‖ ≤ 2 * (1 + v / eta) * ε * (1 + v / eta) := by
        refine (norm_mul_le _ _).trans (mul_le_mul ?_ hVP (norm_nonneg _) (by positivity))
        refine (norm_mul_le _ _).trans (mul_le_mul ?_ hD (norm_nonneg _) (by positivity))
        exact (norm_mul_le _ _).trans (mul_le_mul hQn hPV (norm_nonneg _) (by positivity))
    _ = _ := by ring

/-- The compression `J^dagger (z - H)^-1 J` of a resolvent. -/
theorem compressed {H : Matrix κ κ ℂ} (hH : H.IsHermitian) {J : Matrix κ ι ℂ} (hJ : Jᴴ * J = 1) {z : ℂ} {eta : ℝ}
    (hz : z.im = eta) (he : 0 < eta) {X : Matrix κ ι ℂ} (hX : (z • (1 : Matrix κ κ ℂ) - H) * X = J) {G : Matrix ι ι ℂ}
    (hG : G = Jᴴ * X) :
    Dissipative G eta ∧ IsUnit G ∧ ∀ M : ℝ, ‖z • (1 : Matrix κ κ ℂ) - H‖ ≤ M → ‖G⁻¹‖ ≤ M ^ 2 / eta := by
  have hJn : ∀ x, nrm (J *ᵥ x) = nrm x := by
    intro x
    have h1 := dot_self (J *ᵥ x)
    rw [dot_adj, mulVec_mulVec, hJ, one_mulVec, dot_self] at h1
    have h2 : nrm x ^ 2 = nrm (J *ᵥ x) ^ 2 := by exact_mod_cast h1
    exact ((sq_eq_sq₀ (nrm_nonneg _) (nrm_nonneg _)).1 h2).symm
  have hJt : ∀ y, nrm (Jᴴ *ᵥ y) ≤ nrm y := by
    intro y
    have h1 := dot_self (Jᴴ *ᵥ y)
    rw [dot_adj, conjTranspose_conjTranspose] at h1
    have h2 := dot_le (J *ᵥ (Jᴴ *ᵥ y)) y
    rw [h1, hJn, Complex.norm_real, Real.norm_of_nonneg (sq_nonneg _)] at h2
    rcases (nrm_nonneg (Jᴴ *ᵥ y)).eq_or_lt with h0 | h0
    · rw [← h0]; exact nrm_nonneg _
    · rw [sq] at h2
      exact le_of_mul_le_mul_left h2 h0
  have him : ∀ x, -(star x ⬝ᵥ (G *ᵥ x)).im = eta * nrm (X *ᵥ x) ^ 2 := by
    intro x
    have e1 : J *ᵥ x = z • (X *ᵥ x) - H *ᵥ (X *ᵥ x) := by
      rw [← hX, ← mulVec_mulVec, sub_mulVec, smul_mulVec, one_mulVec]
    have h2 : (star (H *ᵥ (X *ᵥ x)) ⬝ᵥ (X *ᵥ x)).im = 0 := by
      have := herm_im hH (X *ᵥ x)
      rwa [dot_adj, hH.eq] at this
    rw [hG, ← mulVec_mulVec, dot_adj, conjTranspose_conjTranspose, e1, star_sub, sub_dotProduct, Complex.sub_im, h2,
      sub_zero, star_smul, smul_dotProduct, dot_self, smul_eq_mul, Complex.mul_im, Complex.ofReal_im, Complex.ofReal_re,
      mul_zero, zero_add]
    change -(-z.im * _) = _
    rw [hz]
    ring
  have hdis : Dissipative G eta := by
    intro x
    rw [him, hG, ← mulVec_mulVec]
    have := hJt (X *ᵥ x)
    have h0 := nrm_nonneg (Jᴴ *ᵥ (X *ᵥ x))
    exact mul_le_mul_of_nonneg_left (pow_le_pow_left₀ h0 this 2) he.le
  have hlow : ∀ x, ∀ M : ℝ, ‖z • (1 : Matrix κ κ ℂ) - H‖ ≤ M → nrm x ≤ M ^ 2 / eta * nrm (G *ᵥ x) := by
    intro x M hM
    have hM0 := (norm_nonneg _).trans hM
    have h1 : nrm x ≤ M * nrm (X *ᵥ x) := by
      rw [← hJn x, ← hX, ← mulVec_mulVec]
      exact (mulVec_le _ _).trans (mul_le_mul_of_nonneg_right hM (nrm_nonneg _))
    have h2 : eta * nrm (X *ᵥ x) ^ 2 ≤ nrm x * nrm (G *ᵥ x) := by
      rw [← him]
      exact (neg_le_abs _).trans ((Complex.abs_im_le_norm _).trans (dot_le _ _))
    rcases (nrm_nonneg x).eq_or_lt with h0 | h0
    · rw [← h0]
      have := nrm_nonneg (G *ᵥ x)
      positivity
    · rw [div_mul_eq_mul_div, le_div_iff₀ he]
      refine le_of_mul_le_mul_left ?_ h0
      have h3 : nrm x ^ 2 ≤ (M * nrm (X *ᵥ x)) ^ 2 := pow_le_pow_left₀ h0.le h1 2
      have h4 : M ^ 2 * (eta * nrm (X *ᵥ x) ^ 2) ≤ M ^ 2 * (nrm x * nrm (G *ᵥ x)) :=
        mul_le_mul_of_nonneg_left h2 (sq_nonneg _)
      nlinarith
  have hu : IsUnit G := isUnit_of_inj fun x hx => by
    have := hlow x _ le_rfl
    rw [hx] at this
    have h0 : nrm (0 : ι → ℂ) = 0 := by simp [nrm]
    rw [h0, mul_zero] at this
    exact nrm_eq_zero (le_antisymm this (nrm_nonneg _))
  refine ⟨hdis, hu, fun M hM => ?_⟩
  have hM0 := (norm_nonneg _).trans hM
  refine opNorm_le (by positivity) fun x => ?_
  have := hlow (G⁻¹ *ᵥ x) M hM
  rwa [mulVec_mulVec, mul_nonsing_inv _ ((isUnit_iff_isUnit_det G).1 hu), one_mulVec] at this

/-- If `H J = J h`, the compression is the resolvent of `h`. -/
theorem compressed_eq {H : Matrix κ κ ℂ} {J : Matrix κ ι ℂ} (hJ : Jᴴ * J = 1) {h : Matrix ι ι ℂ}
    (hHJ : H * J = J * h) {z : ℂ} (hz : IsUnit (z • (1 : Matrix κ κ ℂ) - H)) {X : Matrix κ ι ℂ}
    (hX : (z • (1 : Matrix κ κ ℂ) - H) * X = J) {G : Matrix ι ι ℂ} (hG : G = Jᴴ * X) :
    G * (z • (1 : Matrix ι ι ℂ) - h) = 1 := by
  have e1 : (z • (1 : Matrix κ κ ℂ) - H) * J = J * (z • (1 : Matrix ι ι ℂ) - h) := by
    rw [Matrix.sub_mul, Matrix.mul_sub, hHJ, Matrix.smul_mul, Matrix.one_mul, Matrix.mul_smul, Matrix.mul_one]
  have e2 : X * (z • (1 : Matrix ι ι ℂ) - h) = J := by
    have hdet := (isUnit_iff_isUnit_det _).1 hz
    have : (z • (1 : Matrix κ κ ℂ) - H) * (X * (z • (1 : Matrix ι ι ℂ) - h)) = (z • (1 : Matrix κ κ ℂ) - H) * J := by
      rw [← Matrix.mul_assoc, hX, e1]
    have h2 := congrArg (fun Y => (z • (1 : Matrix κ κ ℂ) - H)⁻¹ * Y) this
    simpa only [← Matrix.mul_assoc, nonsing_inv_mul _ hdet, Matrix.one_mul] using h2
  rw [hG, Matrix.mul_assoc, e2, hJ]

end Verif.Cpt
