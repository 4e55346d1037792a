import Verif.Proofs.HubbardNorm
/-!
# Lemmas for C93: plane waves without interaction
-/

namespace Verif.Demo

open Latt LDB Spec Matrix Lanczos GF Cpt

section

variable {n : ℕ}

theorem sum_fin_ite (a : ℕ) (f : ℕ → ℂ) : (∑ j : Fin n, if (j : ℕ) = a then f j else 0) = if a < n then f a else 0 := by
  by_cases h : a < n
  · rw [if_pos h, Finset.sum_eq_single (⟨a, h⟩ : Fin n)]
    · rw [if_pos rfl]
    · intro j _ hj
      exact if_neg fun h' => hj (Fin.ext h')
    · intro h'
      exact absurd (Finset.mem_univ _) h'
  · rw [if_neg h]
    exact Finset.sum_eq_zero fun j _ => if_neg fun (h' : (j : ℕ) = a) => h (h' ▸ j.2)

/-- `exp(i k x)`. -/
noncomputable def ph (k x : ℝ) : ℂ := Complex.exp (Complex.I * (k * x))

theorem ph_add (k x y : ℝ) : ph k (x + y) = ph k x * ph k y := by
  unfold ph
  rw [← Complex.exp_add]
  congr 1
  push_cast
  ring

theorem mulVec_plane (M : Matrix (Fin 2 × Fin n) (Fin 2 × Fin n) ℂ) (k : ℝ) (s : Fin 2) (p : Fin 2 × Fin n) :
    (M *ᵥ plane n k s) p = ∑ j : Fin n, M p (s, j) * ph k (j : ℕ) := by
  change ∑ q : Fin 2 × Fin n, M p q * plane n k s q = _
  rw [Fintype.sum_prod_type, Finset.sum_eq_single s]
  · refine Finset.sum_congr rfl fun j _ => ?_
    unfold plane ph
    rw [if_pos rfl, Complex.ofReal_natCast]
  · intro s' _ hs
    refine Finset.sum_eq_zero fun j _ => ?_
    unfold plane
    rw [if_neg hs, mul_zero]
  · intro h
    exact absurd (Finset.mem_univ _) h

theorem chain_plane (t k : ℝ) (s : Fin 2) :
    (chainMat n t + interCluster n t k) *ᵥ plane n k s = ((2 * t * Real.cos k : ℝ) : ℂ) • plane n k s := by
  funext p
  obtain ⟨s', i⟩ := p
  have hi := i.2
  rw [Matrix.add_mulVec, Pi.add_apply, mulVec_plane, mulVec_plane, Pi.smul_apply, smul_eq_mul]
  by_cases hs : s' = s
  · subst hs
    have e0 : plane n k s' (s', i) = ph k (i : ℕ) := by
      unfold plane ph
      rw [if_pos rfl, Complex.ofReal_natCast]
    have e1 : ∑ j : Fin n, chainMat n t (s', i) (s', j) * ph k (j : ℕ) =
        (if (i : ℕ) + 1 < n then (t : ℂ) * ph k ((i + 1 : ℕ)) else 0) +
          if 1 ≤ (i : ℕ) then (t : ℂ) * ph k ((i - 1 : ℕ)) else 0 := by
      rw [← sum_fin_ite ((i : ℕ) + 1) fun j => (t : ℂ) * ph k j]
      have e : (if 1 ≤ (i : ℕ) then (t : ℂ) * ph k ((i - 1 : ℕ)) else 0) =
          ∑ j : Fin n, if 1 ≤ (i : ℕ) ∧ (j : ℕ) = i - 1 then (t : ℂ) * ph k (j : ℕ) else 0 := by
        by_cases h1 : 1 ≤ (i : ℕ)
        · simp only [h1, true_and, if_true]
          rw [sum_fin_ite ((i : ℕ) - 1) fun j => (t : ℂ) * ph k j, if_pos (by omega)]
        · simp only [h1, false_and, if_false, Finset.sum_const_zero]
      rw [e, ← Finset.sum_add_distrib]
      refine Finset.sum_congr rfl fun j _ => ?_
      unfold chainMat
      rw [of_apply]
      by_cases h1 : (j : ℕ) = i + 1
      · rw [if_pos ⟨rfl, .inl h1.symm⟩, if_pos h1, if_neg (by omega), add_zero]
      · by_cases h2 : (j : ℕ) + 1 = i
        · rw [if_pos ⟨rfl, .inr h2⟩, if_neg h1, if_pos (by omega), zero_add]
        · rw [if_neg, if_neg h1, if_neg (by omega), zero_mul, add_zero]
          rintro ⟨-, h | h⟩
          · exact h1 h.symm
          · exact h2 h
    have e2 : ∑ j : Fin n, interCluster n t k (s', i) (s', j) * ph k (j : ℕ) =
        (if (i : ℕ) + 1 = n then (t : ℂ) * ph k n else 0) +
          if (i : ℕ) = 0 then (t : ℂ) * ph k (-1) else 0 := by
      have a1 : (if (i : ℕ) + 1 = n then (t : ℂ) * ph k n else 0) =
          ∑ j : Fin n, if (j : ℕ) = 0 then (if (i : ℕ) + 1 = n then (t : ℂ) * ph k n else 0) else 0 := by
        rw [sum_fin_ite 0 fun _ => (if (i : ℕ) + 1 = n then (t : ℂ) * ph k n else 0), if_pos (show 0 < n by omega)]
      have a2 : (if (i : ℕ) = 0 then (t : ℂ) * ph k (-1) else 0) =
          ∑ j : Fin n, if (j : ℕ) = n - 1 then (if (i : ℕ) = 0 then (t : ℂ) * ph k (-1) else 0) else 0 := by
        rw [sum_fin_ite (n - 1) fun _ => (if (i : ℕ) = 0 then (t : ℂ) * ph k (-1) else 0), if_pos (show n - 1 < n by omega)]
      rw [a1, a2, ← Finset.sum_add_distrib]
      refine Finset.sum_congr rfl fun j _ => ?_
      unfold interCluster
      rw [of_apply, if_pos rfl, add_mul]
      congr 1
      · by_cases h : (i : ℕ) + 1 = n ∧ (j : ℕ) = 0
        · rw [if_pos h, if_pos h.2, if_pos h.1, h.2]
          have : ph k ((0 : ℕ) : ℝ) = 1 := by unfold ph; simp
          rw [this, mul_one]
          unfold ph
          rw [Complex.ofReal_natCast]
        · rw [if_neg h, zero_mul]
          by_cases h2 : (j : ℕ) = 0
          · rw [if_pos h2, if_neg fun h3 => h ⟨h3, h2⟩]
          · rw [if_neg h2]
      · by_cases h : (i : ℕ) = 0 ∧ (j : ℕ) + 1 = n
        · rw [if_pos h, if_pos (by omega), if_pos h.1]
          have : ph k ((j : ℕ) : ℝ) = ph k n * ph k (-1) := by
            rw [← ph_add]
            congr 1
            have : (n : ℝ) = (j : ℕ) + 1 := by exact_mod_cast h.2.symm
            rw [this]
            ring
          rw [this, mul_assoc, ← mul_assoc (Complex.exp _)]
          unfold ph
          rw [Complex.ofReal_natCast, ← Complex.exp_add, neg_add_cancel, Complex.exp_zero, one_mul]
        · rw [if_neg h, zero_mul]
          by_cases h2 : (j : ℕ) = n - 1
          · rw [if_pos h2, if_neg fun h3 => h ⟨h3, by omega⟩]
          · rw [if_neg h2]
    have e3 : ((2 * t * Real.cos k : ℝ) : ℂ) * ph k (i : ℕ) = (t : ℂ) * ph k ((i + 1 : ℕ)) + (t : ℂ) * ph k ((i : ℕ) - 1) := by
      have b1 : ph k ((i + 1 : ℕ)) = ph k (i : ℕ) * ph k 1 := by
        rw [← ph_add]
        push_cast
        rfl
      have b2 : ph k ((i : ℕ) - 1) = ph k (i : ℕ) * ph k (-1) := by
        rw [← ph_add, sub_eq_add_neg]
      have b3 : ((2 * t * Real.cos k : ℝ) : ℂ) = (t : ℂ) * (ph k 1 + ph k (-1)) := by
        unfold ph
        push_cast
        rw [show Complex.I * ((k : ℂ) * 1) = (k : ℂ) * Complex.I by ring, show Complex.I * ((k : ℂ) * -1) = -(k : ℂ) * Complex.I by ring,
          mul_comm 2, mul_assoc, Complex.two_cos]
      rw [b1, b2, b3]
      ring
    rw [e0, e1, e2, e3]
    have c1 : ((if (i : ℕ) + 1 < n then (t : ℂ) * ph k ((i + 1 : ℕ)) else 0) +
        if (i : ℕ) + 1 = n then (t : ℂ) * ph k n else 0) = (t : ℂ) * ph k ((i + 1 : ℕ)) := by
      by_cases h : (i : ℕ) + 1 = n
      · rw [if_neg (by omega), if_pos h, zero_add, h]
      · rw [if_pos (by omega), if_neg h, add_zero]
    have c2 : ((if 1 ≤ (i : ℕ) then (t : ℂ) * ph k ((i - 1 : ℕ)) else 0) +
        if (i : ℕ) = 0 then (t : ℂ) * ph k (-1) else 0) = (t : ℂ) * ph k ((i : ℕ) - 1) := by
      by_cases h : (i : ℕ) = 0
      · rw [if_neg (by omega), if_pos h, zero_add, h]
        push_cast
        rw [zero_sub]
      · rw [if_pos (by omega), if_neg h, add_zero, Nat.cast_sub (by omega), Nat.cast_one]
    linear_combination c1 + c2
  · have e0 : plane n k s (s', i) = 0 := if_neg hs
    rw [e0, mul_zero, Finset.sum_eq_zero, Finset.sum_eq_zero, add_zero]
    · intro j _
      unfold interCluster
      rw [of_apply, if_neg hs, zero_mul]
    · intro j _
      unfold chainMat
      rw [of_apply, if_neg fun h : Adj _ _ => hs h.1, zero_mul]

/-- Without interaction cluster perturbation theory gives the band of the infinite chain. -/
theorem cptGreen_free (hn : 1 ≤ n) (t k : ℝ) {z : ℂ} (hz : z.im ≠ 0) {G : Matrix (Fin 2 × Fin n) (Fin 2 × Fin n) ℂ}
    (hG : G * (z • (1 : Matrix (Fin 2 × Fin n) (Fin 2 × Fin n) ℂ) - chainMat n t) = 1)
    (hu : IsUnit (G⁻¹ - interCluster n t k)) :
    cptGreen n t k G = 2 / (z - ((2 * t * Real.cos k : ℝ) : ℂ)) := by
  have hinv : G⁻¹ = z • (1 : Matrix (Fin 2 × Fin n) (Fin 2 × Fin n) ℂ) - chainMat n t := inv_eq_right_inv hG
  have hdet := (isUnit_iff_isUnit_det _).1 hu
  have hne : z - ((2 * t * Real.cos k : ℝ) : ℂ) ≠ 0 := by
    intro h
    have := congrArg Complex.im h
    rw [Complex.sub_im, Complex.ofReal_im, sub_zero, Complex.zero_im] at this
    exact hz this
  have h1 : ∀ s, (G⁻¹ - interCluster n t k) *ᵥ plane n k s = (z - ((2 * t * Real.cos k : ℝ) : ℂ)) • plane n k s := by
    intro s
    rw [hinv, sub_sub, Matrix.sub_mulVec, chain_plane, Matrix.smul_mulVec, one_mulVec, sub_smul]
  have h2 : ∀ s, (G⁻¹ - interCluster n t k)⁻¹ *ᵥ plane n k s = (z - ((2 * t * Real.cos k : ℝ) : ℂ))⁻¹ • plane n k s := by
    intro s
    have h3 := congrArg (fun v => (z - ((2 * t * Real.cos k : ℝ) : ℂ))⁻¹ • ((G⁻¹ - interCluster n t k)⁻¹ *ᵥ v)) (h1 s)
    rw [mulVec_mulVec, nonsing_inv_mul _ hdet, one_mulVec, mulVec_smul, smul_smul, inv_mul_cancel₀ hne, one_smul] at h3
    exact h3.symm
  rw [cptGreen_eq]
  have h4 : ∀ s : Fin 2, star (plane n k s) ⬝ᵥ ((G⁻¹ - interCluster n t k)⁻¹ *ᵥ plane n k s) =
      (n : ℂ) / (z - ((2 * t * Real.cos k : ℝ) : ℂ)) := by
    intro s
    rw [h2, dotProduct_smul, dot_self, plane_nrm, smul_eq_mul, Complex.ofReal_natCast]
    field_simp
  rw [Finset.sum_congr rfl fun s _ => h4 s]
  have hn' : (n : ℂ) ≠ 0 := by exact_mod_cast (by omega : n ≠ 0)
  simp only [Finset.sum_const, Finset.card_univ, Fintype.card_fin, nsmul_eq_mul]
  field_simp
  norm_num

theorem chainMat_hermitian (t : ℝ) : (chainMat n t).IsHermitian := by
  ext p q
  rw [conjTranspose_apply]
  unfold chainMat
  rw [of_apply, of_apply]
  have : Adj q p ↔ Adj p q := by
    unfold Adj
    constructor
    · rintro ⟨h1, h2 | h2⟩
      · exact ⟨h1.symm, .inr h2⟩
      · exact ⟨h1.symm, .inl h2⟩
    · rintro ⟨h1, h2 | h2⟩
      · exact ⟨h1.symm, .inr h2⟩
      · exact ⟨h1.symm, .inl h2⟩
  by_cases h : Adj p q
  · rw [if_pos h, if_pos (this.2 h), Complex.star_def, Complex.conj_ofReal]
  · rw [if_neg h, if_neg fun h' => h (this.1 h'), star_zero]

theorem shifted_hermitian_isUnit {ι : Type} [Fintype ι] [DecidableEq ι] {A : Matrix ι ι ℂ} (hA : A.IsHermitian) {z : ℂ} (hz : z.im ≠ 0) :
    IsUnit (z • (1 : Matrix ι ι ℂ) - A) := by
  refine isUnit_of_inj fun x hx => ?_
  rw [Matrix.sub_mulVec, Matrix.smul_mulVec, one_mulVec, sub_eq_zero] at hx
  have h1 : (star x ⬝ᵥ (z • x)).im = 0 := by rw [hx]; exact herm_im hA x
  rw [dotProduct_smul, dot_self, smul_eq_mul, Complex.im_mul_ofReal] at h1
  have h2 := (mul_eq_zero.1 h1).resolve_left hz
  exact nrm_eq_zero (pow_eq_zero_iff two_ne_zero |>.1 h2)

theorem free_isUnit (t k : ℝ) {z : ℂ} (hz : z.im ≠ 0) {G : Matrix (Fin 2 × Fin n) (Fin 2 × Fin n) ℂ}
    (hG : G * (z • (1 : Matrix (Fin 2 × Fin n) (Fin 2 × Fin n) ℂ) - chainMat n t) = 1) :
    IsUnit (G⁻¹ - interCluster n t k) := by
  have hinv : G⁻¹ = z • (1 : Matrix (Fin 2 × Fin n) (Fin 2 × Fin n) ℂ) - chainMat n t := inv_eq_right_inv hG
  rw [hinv, sub_sub]
  exact shifted_hermitian_isUnit ((chainMat_hermitian t).add (interCluster_hermitian t k)) hz

end

end Verif.Demo
