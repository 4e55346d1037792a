import Verif.Props.Lanczos
import Mathlib.Analysis.Matrix.PosDef
/-!
# C74: what the projected matrix knows about the full one
-/

namespace Verif.Lanczos

open Matrix

variable {N : ℕ} {κ : Type} {M : Matrix (Fin N) (Fin N) ℂ} {t : ℝ} {vectors : κ → Vec N}
  {v0 : Vec N} {K : ℤ} {rep : Rep κ}

/-- Powers of the matrix applied to the first basis vector, in the basis. -/
theorem power_column {d : ℕ} {V R : Matrix (Fin N) (Fin d) ℂ} {T : Matrix (Fin d) (Fin d) ℂ}
    (hMV : M * V = V * T + R) (hR : ∀ j : Fin d, (j : ℕ) + 1 < d → ∀ a, R a j = 0)
    (hband : ∀ i j : Fin d, (j : ℕ) + 1 < i → T i j = 0) (z : Fin d) (hz : (z : ℕ) = 0) (k : ℕ) (hk : k < d) :
    (M ^ k) *ᵥ (V *ᵥ Pi.single z 1) = V *ᵥ ((T ^ k) *ᵥ Pi.single z 1) ∧
      ∀ i : Fin d, k < i → ((T ^ k) *ᵥ Pi.single z (1 : ℂ)) i = 0 := by
  induction k with
  | zero =>
    refine ⟨by rw [pow_zero, one_mulVec, pow_zero, one_mulVec], fun i hi => ?_⟩
    rw [pow_zero, one_mulVec, Pi.single_apply, if_neg]
    rintro rfl
    omega
  | succ k ih =>
    obtain ⟨ih1, ih2⟩ := ih (by omega)
    have e : (T ^ (k + 1)) *ᵥ Pi.single z (1 : ℂ) = T *ᵥ ((T ^ k) *ᵥ Pi.single z 1) := by
      rw [pow_succ', ← mulVec_mulVec]
    have hRz : R *ᵥ ((T ^ k) *ᵥ Pi.single z (1 : ℂ)) = 0 := by
      funext a
      simp only [mulVec, dotProduct, Pi.zero_apply]
      apply Finset.sum_eq_zero
      intro j _
      by_cases hj : (j : ℕ) + 1 < d
      · rw [hR j hj, zero_mul]
      · have := ih2 j (by omega)
        simp only [mulVec, dotProduct] at this
        rw [this, mul_zero]
    constructor
    · rw [pow_succ', ← mulVec_mulVec, ih1, mulVec_mulVec _ M V, hMV, add_mulVec, hRz, add_zero, e]
      exact (mulVec_mulVec _ V T).symm
    · intro i hi
      rw [e]
      simp only [mulVec, dotProduct]
      apply Finset.sum_eq_zero
      intro j _
      by_cases hj : k < (j : ℕ)
      · have := ih2 j hj
        simp only [mulVec, dotProduct] at this
        rw [this, mul_zero]
      · rw [hband i j (by omega), zero_mul]

theorem vdot_eq_star (a b : Vec N) : vdot a b = star a ⬝ᵥ b := rfl

/-- **C74** (moments).  For Hermitian `M` the projected matrix `T` of dimension `d` has the moments of `M` in
the start vector up to order `2 d - 1`: `|v0|^2 (T^k)_00 = <v0, M^k v0>`. -/
theorem C74_moments (hM : M.IsHermitian) (ht : 0 ≤ t) (h : krylov t M vectors v0 K = .ok rep)
    (z : Fin rep.dim) (hz : (z : ℕ) = 0) (k : ℕ) (hk : k < 2 * rep.dim) :
    ((norm2 v0 : ℂ) ^ 2) * (((rep.mat ^ k) z z : ℝ) : ℂ) = vdot v0 ((M ^ k) *ᵥ v0) := by
  obtain ⟨V, hV, hmat, -, hband, -, hcol, R, hMV, hVR, hR, -⟩ := C56_lanczos_representation hM ht h
  have hv : t < norm2 v0 := (krylov_shape h).1
  have hn : (norm2 v0 : ℂ) ≠ 0 := by
    have : norm2 v0 ≠ 0 := by linarith
    exact_mod_cast this
  set T := rep.mat.map (fun x => (x : ℂ)) with hTdef
  have hband' : ∀ i j : Fin rep.dim, (j : ℕ) + 1 < i → T i j = 0 := by
    intro i j hij
    rw [hTdef, map_apply, hband.band i j (Or.inr hij)]
    simp
  have hTH : Tᴴ = T := by
    rw [hTdef]
    ext i j
    rw [conjTranspose_apply, map_apply, map_apply]
    have := congrFun (congrFun hband.symm i) j
    rw [transpose_apply] at this
    rw [this]
    simp
  have hv0 : v0 = (norm2 v0 : ℂ) • (V *ᵥ Pi.single z 1) := by
    funext a
    rw [Pi.smul_apply, mulVec_single_one]
    simp only [Matrix.col, smul_eq_mul, transpose_apply]
    rw [hcol z hz, mul_div_cancel₀ _ hn]
  set u := V *ᵥ Pi.single z (1 : ℂ) with hu
  have hT1 : ((rep.mat ^ k) z z : ℂ) = (T ^ k) z z := by
    have : T ^ k = (rep.mat ^ k).map (fun x => (x : ℂ)) := by
      rw [hTdef]
      exact (Matrix.map_pow (f := Complex.ofRealHom) rep.mat k).symm
    rw [this, map_apply]
  -- split k = i + j or i + j + 1
  have hMH : ∀ n, (M ^ n)ᴴ = M ^ n := fun n => by rw [conjTranspose_pow, hM.eq]
  have hTHn : ∀ n, (T ^ n)ᴴ = T ^ n := fun n => by rw [conjTranspose_pow, hTH]
  have split : ∀ (w : Vec N) i n j, (star w) ⬝ᵥ ((M ^ (i + n + j)) *ᵥ w) =
      star ((M ^ i) *ᵥ w) ⬝ᵥ ((M ^ n) *ᵥ ((M ^ j) *ᵥ w)) := by
    intro w i n j
    rw [star_mulVec, hMH, ← dotProduct_mulVec, mulVec_mulVec, mulVec_mulVec, ← pow_add, ← pow_add, add_assoc]
  have splitT : ∀ i n j, (star (Pi.single z (1 : ℂ))) ⬝ᵥ ((T ^ (i + n + j)) *ᵥ Pi.single z 1) =
      star ((T ^ i) *ᵥ Pi.single z (1 : ℂ)) ⬝ᵥ ((T ^ n) *ᵥ ((T ^ j) *ᵥ Pi.single z (1 : ℂ))) := by
    intro i n j
    rw [star_mulVec, hTHn, ← dotProduct_mulVec, mulVec_mulVec, mulVec_mulVec, ← pow_add, ← pow_add, add_assoc]
  have hzz : ∀ n, (star (Pi.single z (1 : ℂ))) ⬝ᵥ ((T ^ n) *ᵥ Pi.single z 1) = (T ^ n) z z := by
    intro n
    rw [mulVec_single_one, ← Pi.single_star, star_one, single_dotProduct, one_mul]
    rfl
  have hd : 0 < rep.dim := by have := z.2; omega
  have cols := fun j hj => (power_column hMV hR hband' z hz j hj).1
  have hiso : ∀ x y : Vec rep.dim, star (V *ᵥ x) ⬝ᵥ (V *ᵥ y) = star x ⬝ᵥ y := by
    intro x y
    rw [star_mulVec, ← dotProduct_mulVec, mulVec_mulVec, hV.orthonormal, one_mulVec]
  have main : star u ⬝ᵥ ((M ^ k) *ᵥ u) = (T ^ k) z z := by
    rw [← hzz]
    by_cases hlt : k < rep.dim
    · rw [cols k hlt, hu, hiso]
    by_cases hodd : k = 2 * rep.dim - 1
    · have e : k = (rep.dim - 1) + 1 + (rep.dim - 1) := by omega
      rw [e, split u, splitT, cols _ (by omega)]
      rw [pow_one, pow_one, mulVec_mulVec _ M V, hMV, add_mulVec, dotProduct_add]
      have hz0 : star (V *ᵥ ((T ^ (rep.dim - 1)) *ᵥ Pi.single z (1 : ℂ))) ⬝ᵥ
          (R *ᵥ ((T ^ (rep.dim - 1)) *ᵥ Pi.single z (1 : ℂ))) = 0 := by
        rw [star_mulVec, ← dotProduct_mulVec, mulVec_mulVec, hVR, zero_mulVec, dotProduct_zero]
      rw [hz0, add_zero, ← mulVec_mulVec _ V T, hiso]
    · have e : k = (rep.dim - 1) + 0 + (k - (rep.dim - 1)) := by omega
      rw [e, split u, splitT, cols _ (by omega), cols _ (by omega)]
      simp only [pow_zero, one_mulVec]
      rw [hiso]
  rw [hT1, ← main, vdot_eq_star]
  conv_rhs => rw [hv0]
  rw [star_smul, mulVec_smul, smul_dotProduct, dotProduct_smul]
  simp only [smul_eq_mul, RCLike.star_def, Complex.conj_ofReal]
  ring

/-- **C74** (bounds).  The projected matrix has the numerical range of the full one: bounds on the quadratic form
of `M` are bounds on that of the projected matrix, so in particular its eigenvalues lie between the
bounds of the spectrum of `M`. -/
theorem C74_ritz_bounds (hM : M.IsHermitian) (ht : 0 ≤ t) (h : krylov t M vectors v0 K = .ok rep) (a b : ℝ)
    (hab : ∀ w : Vec N, a * (vdot w w).re ≤ (vdot w (M *ᵥ w)).re ∧
      (vdot w (M *ᵥ w)).re ≤ b * (vdot w w).re) :
    (∀ x : Fin rep.dim → ℝ, a * (x ⬝ᵥ x) ≤ x ⬝ᵥ (rep.mat *ᵥ x) ∧ x ⬝ᵥ (rep.mat *ᵥ x) ≤ b * (x ⬝ᵥ x)) ∧
    ∀ (l : ℝ) (x : Fin rep.dim → ℝ), x ≠ 0 → rep.mat *ᵥ x = l • x → a ≤ l ∧ l ≤ b := by
  obtain ⟨V, hV, hmat, -⟩ := C56_lanczos_representation hM ht h
  have key : ∀ x : Fin rep.dim → ℝ, a * (x ⬝ᵥ x) ≤ x ⬝ᵥ (rep.mat *ᵥ x) ∧
      x ⬝ᵥ (rep.mat *ᵥ x) ≤ b * (x ⬝ᵥ x) := by
    intro x
    let xc : Vec rep.dim := fun i => (x i : ℂ)
    have hs : star xc = xc := by funext i; simp [xc]
    have h1 : vdot (V *ᵥ xc) (V *ᵥ xc) = ((x ⬝ᵥ x : ℝ) : ℂ) := by
      rw [vdot_eq_star, star_mulVec, ← dotProduct_mulVec, mulVec_mulVec, hV.orthonormal, one_mulVec, hs]
      simp [dotProduct, xc]
    have h2 : vdot (V *ᵥ xc) (M *ᵥ (V *ᵥ xc)) = ((x ⬝ᵥ (rep.mat *ᵥ x) : ℝ) : ℂ) := by
      rw [vdot_eq_star, star_mulVec, ← dotProduct_mulVec, mulVec_mulVec, mulVec_mulVec,
        ← hmat, hs]
      simp [dotProduct, mulVec, xc]
    have := hab (V *ᵥ xc)
    rw [h1, h2, Complex.ofReal_re, Complex.ofReal_re] at this
    exact this
  refine ⟨key, ?_⟩
  intro l x hx hl
  have := key x
  rw [hl, dotProduct_smul, smul_eq_mul] at this
  have hpos : 0 < x ⬝ᵥ x := by
    have h0 : 0 ≤ x ⬝ᵥ x := by
      simp only [dotProduct]
      exact Finset.sum_nonneg fun i _ => mul_self_nonneg _
    refine lt_of_le_of_ne h0 fun e => hx ?_
    funext i
    have h1 : ∑ i, x i * x i = 0 := e.symm
    rw [Finset.sum_eq_zero_iff_of_nonneg (fun i _ => mul_self_nonneg _)] at h1
    exact mul_self_eq_zero.mp (h1 i (Finset.mem_univ _))
  exact ⟨le_of_mul_le_mul_right this.1 hpos, le_of_mul_le_mul_right this.2 hpos⟩

/-- **C74** (variational estimate).  The projected matrix has an eigenvalue not above the expectation value of `M` in
the start vector; with `C74_ritz_bounds` it is not below the smallest eigenvalue of `M`. -/
theorem C74_ground_estimate (hM : M.IsHermitian) (ht : 0 ≤ t) (h : krylov t M vectors v0 K = .ok rep)
    (hK : 0 < K) :
    ∃ (l : ℝ) (x : Fin rep.dim → ℝ), x ≠ 0 ∧ rep.mat *ᵥ x = l • x ∧
      l * norm2 v0 ^ 2 ≤ (vdot v0 (M *ᵥ v0)).re := by
  have hd : 0 < rep.dim := (krylov_shape h).2.2.1 (by omega)
  let z : Fin rep.dim := ⟨0, hd⟩
  have hmom := C74_moments hM ht h z rfl 1 (by omega)
  rw [pow_one, pow_one] at hmom
  obtain ⟨-, -, -, -, hband, -⟩ := C56_lanczos_representation hM ht h
  have hS : (rep.mat - (rep.mat z z) • (1 : Matrix (Fin rep.dim) (Fin rep.dim) ℝ)).IsHermitian := by
    unfold Matrix.IsHermitian
    rw [conjTranspose_eq_transpose_of_trivial, transpose_sub, hband.symm, transpose_smul, transpose_one]
  have hnp : ¬ (rep.mat - (rep.mat z z) • (1 : Matrix (Fin rep.dim) (Fin rep.dim) ℝ)).PosDef := by
    intro hp
    have := hp.diag_pos (i := z)
    simp at this
  rw [hS.posDef_iff_eigenvalues_pos] at hnp
  push Not at hnp
  obtain ⟨i, hi⟩ := hnp
  have hx := hS.mulVec_eigenvectorBasis i
  refine ⟨hS.eigenvalues i + rep.mat z z, (hS.eigenvectorBasis i).ofLp, ?_, ?_, ?_⟩
  · intro e
    apply hS.eigenvectorBasis.toBasis.ne_zero i
    simp only [OrthonormalBasis.coe_toBasis]
    ext j
    exact congrFun e j
  · rw [sub_mulVec, smul_mulVec, one_mulVec, sub_eq_iff_eq_add] at hx
    rw [hx, add_smul]
  · rw [← hmom]
    have e : ((norm2 v0 : ℂ) ^ 2 * ((rep.mat z z : ℝ) : ℂ)).re = norm2 v0 ^ 2 * rep.mat z z := by
      rw [← Complex.ofReal_pow, ← Complex.ofReal_mul, Complex.ofReal_re]
    rw [e]
    nlinarith [sq_nonneg (norm2 v0)]

/-- **C74** (other vectors).  For the vectors projected along, `<w, M^k v0>` is recovered for `k < d`. -/
theorem C74_overlaps (hM : M.IsHermitian) (ht : 0 ≤ t) (h : krylov t M vectors v0 K = .ok rep)
    (z : Fin rep.dim) (hz : (z : ℕ) = 0) (k : ℕ) (hk : k < rep.dim) (key : κ) :
    (norm2 v0 : ℂ) * ∑ i, star (rep.vec key i) * (((rep.mat ^ k) i z : ℝ) : ℂ) =
      vdot (vectors key) ((M ^ k) *ᵥ v0) := by
  obtain ⟨V, hV, hmat, hvec, hband, -, hcol, R, hMV, hVR, hR, -⟩ := C56_lanczos_representation hM ht h
  have hv : t < norm2 v0 := (krylov_shape h).1
  have hn : (norm2 v0 : ℂ) ≠ 0 := by
    have : norm2 v0 ≠ 0 := by linarith
    exact_mod_cast this
  have hband' : ∀ i j : Fin rep.dim, (j : ℕ) + 1 < i → (rep.mat.map (fun x => (x : ℂ))) i j = 0 := by
    intro i j hij
    rw [map_apply, hband.band i j (Or.inr hij)]
    simp
  have hv0 : v0 = (norm2 v0 : ℂ) • (V *ᵥ Pi.single z 1) := by
    funext a
    rw [Pi.smul_apply, mulVec_single_one]
    simp only [Matrix.col, smul_eq_mul, transpose_apply]
    rw [hcol z hz, mul_div_cancel₀ _ hn]
  have hT1 : (rep.mat.map (fun x => (x : ℂ))) ^ k = (rep.mat ^ k).map (fun x => (x : ℂ)) :=
    (Matrix.map_pow (f := Complex.ofRealHom) rep.mat k).symm
  conv_rhs => rw [hv0]
  rw [mulVec_smul, vdot_smul_right, (power_column hMV hR hband' z hz k hk).1, hT1, hvec, vdot_eq_star]
  congr 1
  rw [dotProduct_mulVec, ← star_star ((star (vectors key)) ᵥ* V), star_vecMul, star_star, mulVec_single_one]
  rfl

/-- **C74** (nesting).  With a larger `krylov_space_dim` the result extends the one with a smaller one: the dimension
does not decrease, the matrix and the vectors agree on the common part, and nothing changes once the
iteration has stopped by itself. -/
theorem C74_nesting {K' : ℤ} {rep' : Rep κ} (h : krylov t M vectors v0 K = .ok rep)
    (h' : krylov t M vectors v0 K' = .ok rep') (hK : K ≤ K') :
    ∃ hle : rep.dim ≤ rep'.dim,
      (∀ i j, rep.mat i j = rep'.mat (Fin.castLE hle i) (Fin.castLE hle j)) ∧
      (∀ key i, rep.vec key i = rep'.vec key (Fin.castLE hle i)) ∧
      ((rep.dim : ℤ) < K → rep'.dim = rep.dim) := by
  obtain ⟨-, hd, hpos, hres, hend, hmat, hvec⟩ := krylov_shape h
  obtain ⟨-, hd', hpos', hres', hend', hmat', hvec'⟩ := krylov_shape h'
  have hle : rep.dim ≤ rep'.dim := by
    by_contra hlt
    have h1 := hend' (by omega)
    have h2 := hres (rep'.dim - 1) (by have := hpos' (by omega); omega)
    linarith
  refine ⟨hle, ?_, ?_, ?_⟩
  · intro i j
    rw [hmat, hmat']
    simp only [Fin.val_castLE, Fin.ext_iff]
  · intro key i
    rw [hvec, hvec']
    simp only [Fin.val_castLE]
  · intro hlt
    by_contra hne
    have h1 := hend (by omega)
    have h2 := hres' (rep.dim - 1) (by have := hpos (by omega); omega)
    linarith

/-- Non-vacuity of C74: the swap matrix with the start vector `(1, 0)` gives dimension 2, so moments up to
order 3. -/
example : ∃ rep : Rep Unit, krylov 0 (!![0, 1; 1, 0] : Matrix (Fin 2) (Fin 2) ℂ)
    (fun _ : Unit => (![1, 0] : Vec 2)) ![1, 0] 5 = .ok rep ∧ ∃ z : Fin rep.dim, (z : ℕ) = 0 ∧ 3 < 2 * rep.dim := by
  obtain ⟨-, rep, h, hd⟩ := swap_example
  exact ⟨rep, h, ⟨0, by omega⟩, rfl, by omega⟩

end Verif.Lanczos
