import Verif.Proofs.HubbardLowest
import Mathlib.Logic.Relation
import Mathlib.Analysis.Matrix.Order
/-!
Helper lemmas: a Hermitian matrix with connected off-diagonal entries of the right signs has one ground state, without zeros
(for C130).
-/

namespace Verif.LDB

open Verif.Latt Verif.Spec Demo Matrix
open scoped ComplexOrder

variable {N : ℕ} {M : Matrix (Fin N) (Fin N) ℂ} {σ : Fin N → ℝ} {K : Fin N → Fin N → ℝ}

/-- The off-diagonal entries are `-σ r σ c K r c` with signs `σ` and `K ≥ 0`. -/
def OffSigns (M : Matrix (Fin N) (Fin N) ℂ) (σ : Fin N → ℝ) (K : Fin N → Fin N → ℝ) : Prop :=
  (∀ r, σ r * σ r = 1) ∧ ∀ r c, r ≠ c → 0 ≤ K r c ∧ M r c = ((-(σ r * σ c * K r c) : ℝ) : ℂ)

/-- The vector of absolute values. -/
noncomputable def absVec (σ : Fin N → ℝ) (v : Fin N → ℂ) : Fin N → ℂ := fun r => ((σ r * ‖v r‖ : ℝ) : ℂ)

theorem form_expand (M : Matrix (Fin N) (Fin N) ℂ) (v : Fin N → ℂ) :
    form M v = ∑ r, ∑ c, (star (v r) * (M r c * v c)).re := by
  unfold form dotProduct mulVec
  simp only [dotProduct, Complex.re_sum, Pi.star_apply, Finset.mul_sum]

theorem norm2_absVec (h : OffSigns M σ K) (v : Fin N → ℂ) : norm2 (absVec σ v) = norm2 v := by
  unfold norm2 absVec
  refine Finset.sum_congr rfl fun r _ => ?_
  rw [Complex.normSq_ofReal, Complex.normSq_eq_norm_sq]
  have := h.1 r
  linear_combination ‖v r‖ ^ 2 * this

theorem form_absVec_le (h : OffSigns M σ K) (v : Fin N → ℂ) : form M (absVec σ v) ≤ form M v := by
  rw [form_expand, form_expand]
  refine Finset.sum_le_sum fun r _ => Finset.sum_le_sum fun c _ => ?_
  by_cases hrc : r = c
  · subst hrc
    apply le_of_eq
    have e : ∀ z w : ℂ, (star z * (w * z)).re = w.re * Complex.normSq z := fun z w => by
      simp [Complex.normSq_apply]
      ring
    rw [e, e]
    congr 1
    unfold absVec
    rw [Complex.normSq_ofReal, Complex.normSq_eq_norm_sq]
    have := h.1 r
    linear_combination ‖v r‖ ^ 2 * this
  · obtain ⟨hk, hm⟩ := h.2 r c hrc
    rw [hm]
    have e1 : (star (absVec σ v r) * (((-(σ r * σ c * K r c) : ℝ) : ℂ) * absVec σ v c)).re =
        -(K r c * (‖v r‖ * ‖v c‖)) := by
      unfold absVec
      rw [Complex.star_def, Complex.conj_ofReal, ← Complex.ofReal_mul, ← Complex.ofReal_mul, Complex.ofReal_re]
      have a := h.1 r
      have b := h.1 c
      linear_combination (-(K r c * ‖v r‖ * ‖v c‖) * (σ c * σ c)) * a - (K r c * ‖v r‖ * ‖v c‖) * b
    rw [e1]
    have e2 : |(star (v r) * (((-(σ r * σ c * K r c) : ℝ) : ℂ) * v c)).re| ≤ K r c * (‖v r‖ * ‖v c‖) := by
      refine (Complex.abs_re_le_norm _).trans (le_of_eq ?_)
      rw [norm_mul, norm_star, norm_mul, Complex.norm_real, Real.norm_eq_abs, abs_neg, abs_mul, abs_mul, abs_of_nonneg hk]
      have s : ∀ q, |σ q| = 1 := fun q => by
        have := h.1 q
        rw [← abs_mul_abs_self] at this
        nlinarith [abs_nonneg (σ q)]
      rw [s, s]
      ring
    exact (abs_le.1 e2).1

/-- If the form is minimal, the vector is an eigenvector. -/
theorem eigen_of_form {E : ℝ} (hM : M.IsHermitian) (hE : ∀ v, E * norm2 v ≤ form M v) {v : Fin N → ℂ}
    (hv : form M v ≤ E * norm2 v) : M *ᵥ v = (E : ℂ) • v := by
  have hH : (M - (E : ℂ) • 1).IsHermitian := by
    refine hM.sub ?_
    unfold Matrix.IsHermitian
    rw [conjTranspose_smul, conjTranspose_one]
    simp
  have key : ∀ w, star w ⬝ᵥ (M - (E : ℂ) • 1) *ᵥ w = ((form M w - E * norm2 w : ℝ) : ℂ) := by
    intro w
    have him : (star w ⬝ᵥ (M - (E : ℂ) • 1) *ᵥ w).im = 0 := hH.im_star_dotProduct_mulVec_self w
    refine Complex.ext ?_ (by rw [him, Complex.ofReal_im])
    rw [Complex.ofReal_re, Matrix.sub_mulVec, Matrix.smul_mulVec, Matrix.one_mulVec, dotProduct_sub, dotProduct_smul,
      star_dot, smul_eq_mul, ← Complex.ofReal_mul, Complex.sub_re, Complex.ofReal_re]
    rfl
  have hp : (M - (E : ℂ) • 1).PosSemidef := by
    refine Matrix.PosSemidef.of_dotProduct_mulVec_nonneg hH fun w => ?_
    rw [key]
    exact_mod_cast sub_nonneg.2 (hE w)
  have h0 : star v ⬝ᵥ (M - (E : ℂ) • 1) *ᵥ v = 0 := by
    rw [key, le_antisymm hv (hE v), sub_self, Complex.ofReal_zero]
  have := (hp.dotProduct_mulVec_zero_iff v).1 h0
  rwa [Matrix.sub_mulVec, Matrix.smul_mulVec, Matrix.one_mulVec, sub_eq_zero] at this

theorem abs_eigen {E : ℝ} (hM : M.IsHermitian) (h : OffSigns M σ K) (hE : ∀ v, E * norm2 v ≤ form M v) {v : Fin N → ℂ}
    (hv : M *ᵥ v = (E : ℂ) • v) : M *ᵥ absVec σ v = (E : ℂ) • absVec σ v := by
  refine eigen_of_form hM hE ?_
  rw [norm2_absVec h, ← form_eigen hv]
  exact form_absVec_le h v

theorem zero_spreads {E : ℝ} (h : OffSigns M σ K) {v : Fin N → ℂ} (hv : M *ᵥ absVec σ v = (E : ℂ) • absVec σ v)
    {a b : Fin N} (ha : v a = 0) (hab : a ≠ b) (hK : K a b ≠ 0) : v b = 0 := by
  have e := congrFun hv a
  have hz : absVec σ v a = 0 := by simp [absVec, ha]
  rw [Pi.smul_apply, hz, smul_zero] at e
  have e' : ∑ c, M a c * absVec σ v c = ((-(σ a * ∑ c, if c = a then 0 else K a c * ‖v c‖) : ℝ) : ℂ) := by
    rw [Finset.mul_sum, ← Finset.sum_neg_distrib, Complex.ofReal_sum]
    refine Finset.sum_congr rfl fun c _ => ?_
    by_cases hc : c = a
    · rw [if_pos hc, hc, hz]
      simp
    · rw [if_neg hc, (h.2 a c (Ne.symm hc)).2]
      unfold absVec
      rw [← Complex.ofReal_mul]
      congr 1
      have := h.1 c
      linear_combination (-(σ a * K a c * ‖v c‖)) * this
  have e2 : ∑ c, M a c * absVec σ v c = 0 := e
  rw [e2] at e'
  have e3 : σ a * ∑ c, (if c = a then 0 else K a c * ‖v c‖) = 0 := by
    have := Complex.ofReal_eq_zero.1 e'.symm
    linarith
  have e4 : ∑ c, (if c = a then 0 else K a c * ‖v c‖) = 0 := by
    rcases mul_eq_zero.1 e3 with hs | hs
    · have := h.1 a
      rw [hs] at this
      norm_num at this
    · exact hs
  have e5 := (Finset.sum_eq_zero_iff_of_nonneg fun c _ => by
    by_cases hc : c = a
    · rw [if_pos hc]
    · rw [if_neg hc]
      exact mul_nonneg (h.2 a c (Ne.symm hc)).1 (norm_nonneg _)).1 e4 b (Finset.mem_univ _)
  rw [if_neg hab.symm] at e5
  exact norm_eq_zero.1 ((mul_eq_zero.1 e5).resolve_left hK)

/-- The ground state is unique, and has the given signs. -/
theorem perron (hN : 0 < N) (hM : M.IsHermitian) (h : OffSigns M σ K)
    (hc : ∀ r c, Relation.ReflTransGen (fun a b => a ≠ b ∧ K a b ≠ 0) r c) :
    ∃ E : ℝ, IsLowest M E ∧ ∃ x : Fin N → ℝ, (∀ r, 0 < x r) ∧ M *ᵥ (fun r => ((σ r * x r : ℝ) : ℂ)) =
      (E : ℂ) • (fun r => ((σ r * x r : ℝ) : ℂ)) ∧
      ∀ w, M *ᵥ w = (E : ℂ) • w → ∃ z : ℂ, w = z • (fun r => ((σ r * x r : ℝ) : ℂ)) := by
  obtain ⟨E, hL, hE⟩ := exists_lowest hN hM
  have nz : ∀ v, M *ᵥ v = (E : ℂ) • v → ∀ a, v a = 0 → v = 0 := by
    intro v hv a ha
    funext b
    have := hc a b
    induction this with
    | refl => exact ha
    | tail _ hs ih => exact zero_spreads h (abs_eigen hM h hE hv) ih hs.1 hs.2
  obtain ⟨⟨v, hv0, hv⟩, -⟩ := id hL
  refine ⟨E, hL, fun r => ‖v r‖, fun r => norm_pos_iff.2 fun hr => hv0 (nz v hv r hr), abs_eigen hM h hE hv, fun w hw => ?_⟩
  have hA : M *ᵥ absVec σ v = (E : ℂ) • absVec σ v := abs_eigen hM h hE hv
  let r0 : Fin N := ⟨0, hN⟩
  have hr0 : absVec σ v r0 ≠ 0 := by
    unfold absVec
    rw [Complex.ofReal_ne_zero]
    refine mul_ne_zero (fun hs => ?_) (norm_ne_zero_iff.2 fun hr => hv0 (nz v hv r0 hr))
    have := h.1 r0
    rw [hs] at this
    norm_num at this
  refine ⟨w r0 / absVec σ v r0, ?_⟩
  have hu : M *ᵥ (w - (w r0 / absVec σ v r0) • absVec σ v) = (E : ℂ) • (w - (w r0 / absVec σ v r0) • absVec σ v) := by
    rw [Matrix.mulVec_sub, Matrix.mulVec_smul, hw, hA, smul_sub, smul_comm]
  have := nz _ hu r0 (by
    rw [Pi.sub_apply, Pi.smul_apply, smul_eq_mul, div_mul_cancel₀ _ hr0, sub_self])
  exact sub_eq_zero.1 this

end Verif.LDB
