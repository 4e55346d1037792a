import Verif.Proofs.FockState
import Verif.Proofs.Cpt
import Verif.Proofs.HubbardH
/-!
# Lemmas for C92: the Green function of the cluster
-/

namespace Verif.Demo

open Latt LDB Spec Matrix Lanczos GF Cpt

section

variable {n : ℕ} {H : Module.End ℂ Fock} {E : ℝ}

/-- The equation of `x q` has one solution. -/
theorem green_x_unique (hH : IsAdj H H) {z : ℂ} (hz : z.im ≠ 0) {x x' v : Fock}
    (h : z • x + (E : ℂ) • x = H x + v) (h' : z • x' + (E : ℂ) • x' = H x' + v) : x = x' := by
  have : z • (x - x') = (1 : ℂ) • H (x - x') + ((-E : ℝ) : ℂ) • (x - x') := by
    rw [map_sub, one_smul, smul_sub, smul_sub]
    have e1 : z • x = H x + v - (E : ℂ) • x := eq_sub_of_add_eq h
    have e2 : z • x' = H x' + v - (E : ℂ) • x' := eq_sub_of_add_eq h'
    rw [e1, e2, Complex.ofReal_neg, neg_smul, neg_smul]
    abel
  exact sub_eq_zero.1 (resolvent_unique hH hz (.inl rfl) _ this)

theorem green_y_unique (hH : IsAdj H H) {z : ℂ} (hz : z.im ≠ 0) {y y' v : Fock}
    (h : z • y + H y = (E : ℂ) • y + v) (h' : z • y' + H y' = (E : ℂ) • y' + v) : y = y' := by
  have : z • (y - y') = (-1 : ℂ) • H (y - y') + (E : ℂ) • (y - y') := by
    rw [map_sub, neg_smul, one_smul, smul_sub, smul_sub]
    have e1 : z • y = (E : ℂ) • y + v - H y := eq_sub_of_add_eq h
    have e2 : z • y' = (E : ℂ) • y' + v - H y' := eq_sub_of_add_eq h'
    rw [e1, e2]
    abel
  exact sub_eq_zero.1 (resolvent_unique hH hz (.inr rfl) _ this)

theorem clusterGreen_unique (hH : IsAdj H H) {z : ℂ} (hz : z.im ≠ 0) {psi : Fock}
    {G G' : Matrix (Fin 2 × Fin n) (Fin 2 × Fin n) ℂ} (h : IsClusterGreen n H E psi z G)
    (h' : IsClusterGreen n H E psi z G') : G = G' := by
  obtain ⟨x, y, hx, hy, hG⟩ := h
  obtain ⟨x', y', hx', hy', hG'⟩ := h'
  ext p q
  rw [hG, hG', green_x_unique hH hz (hx q) (hx' q), green_y_unique hH hz (hy p) (hy' p)]

/-- The equation of `x q` on a basis. -/
theorem green_x_state {B0 B : List ℕ} (h0 : B0.Nodup) (hB : B.Nodup) (hH : MapsTo H B B) {q : ℕ}
    (hC : MapsTo (create q) B0 B) {GS : Vec B0.length} {z : ℂ} {x : Vec B.length}
    (hx : shifted z E (opMat B H) "-" *ᵥ x = opMat2 B B0 (create q) *ᵥ GS) :
    z • stateOf B x + (E : ℂ) • stateOf B x = H (stateOf B x) + create q (stateOf B0 GS) := by
  rw [apply_stateOf hB hB hH, apply_stateOf h0 hB hC, ← stateOf_smul, ← stateOf_smul, ← stateOf_add, ← stateOf_add,
    ← hx, shifted_mulVec, if_neg (by decide), ← opMat_eq_opMat2, add_smul]
  congr 1
  abel

theorem green_y_state {B0 B : List ℕ} (h0 : B0.Nodup) (hB : B.Nodup) (hH : MapsTo H B B) {q : ℕ}
    (hA : MapsTo (annihilate q) B0 B) {GS : Vec B0.length} {z : ℂ} {y : Vec B.length}
    (hy : shifted z E (opMat B H) "+" *ᵥ y = opMat2 B B0 (annihilate q) *ᵥ GS) :
    z • stateOf B y + H (stateOf B y) = (E : ℂ) • stateOf B y + annihilate q (stateOf B0 GS) := by
  rw [apply_stateOf hB hB hH, apply_stateOf h0 hB hA, ← stateOf_smul, ← stateOf_smul, ← stateOf_add, ← stateOf_add,
    ← hy, shifted_mulVec, if_pos rfl, ← opMat_eq_opMat2, sub_smul]
  congr 1
  abel

theorem orbital_inj {p q : Fin 2 × Fin n} (h : orbital n p = orbital n q) : p = q := by
  have := (index_eq (s := p.1) (s' := q.1) p.2.2 q.2.2).1 h
  exact Prod.ext (Fin.ext this.1) (Fin.ext this.2)

theorem orbital_lt (p : Fin 2 × Fin n) : orbital n p < 2 * n := site_lt p.1.2 p.2.2

/-- The two parts of the Green function have the weight of the anticommutator. -/
theorem anticommutator_weight (psi : Fock) (p q : Fin 2 × Fin n) :
    fockInner (create (orbital n p) psi) (create (orbital n q) psi) +
      fockInner (annihilate (orbital n q) psi) (annihilate (orbital n p) psi) =
      if p = q then fockInner psi psi else 0 := by
  rw [← fockInner_adj (isAdj_create_annihilate (orbital n p)).symm, ← fockInner_adj (isAdj_create_annihilate (orbital n q)),
    ← fockInner_add_right, ← Module.End.mul_apply, ← Module.End.mul_apply, ← LinearMap.add_apply, annihilate_create]
  by_cases h : p = q
  · subst h
    rw [if_pos rfl, if_pos rfl, Module.End.one_apply]
  · rw [if_neg h, if_neg fun he => h (orbital_inj he), LinearMap.zero_apply, fockInner_eq _ subset_rfl]
    exact Finset.sum_eq_zero fun S _ => by rw [Finsupp.zero_apply, mul_zero]

/-- The two resolvents side by side. -/
def pairJ {N : ℕ} {ι : Type} (C A : ι → Vec N) : Matrix (Fin N ⊕ Fin N) ι ℂ :=
  .of fun r p => Sum.elim (C p) (fun r => star (A p r)) r

theorem pair_mul {N : ℕ} {ι : Type} (C A C' A' : ι → Vec N) (p q : ι) :
    ((pairJ C A)ᴴ * pairJ C' A') p q = vdot (C p) (C' q) + vdot (A' q) (A p) := by
  rw [Matrix.mul_apply, Fintype.sum_sum_type]
  unfold vdot
  congr 1
  refine Finset.sum_congr rfl fun r _ => ?_
  rw [conjTranspose_apply]
  change star (star (A p r)) * star (A' q r) = star (A' q r) * A p r
  rw [star_star, mul_comm]

theorem block_mul {N : ℕ} {ι : Type} (W1 W2 : Matrix (Fin N) (Fin N) ℂ) (C A C' A' : ι → Vec N)
    (h1 : ∀ q, W1 *ᵥ C q = C' q) (h2 : ∀ q, W2 *ᵥ star (A q) = star (A' q)) :
    fromBlocks W1 0 0 W2 * pairJ C A = pairJ C' A' := by
  ext r q
  have e : (fromBlocks W1 0 0 W2 * pairJ C A) r q = (fromBlocks W1 0 0 W2 *ᵥ Sum.elim (C q) (star (A q))) r := by
    rw [Matrix.mul_apply, mulVec, dotProduct]
    refine Finset.sum_congr rfl fun c _ => ?_
    cases c <;> rfl
  rw [e, fromBlocks_mulVec]
  cases r with
  | inl r => simpa [pairJ] using congrFun (h1 q) r
  | inr r => simpa [pairJ] using congrFun (h2 q) r

open scoped Matrix.Norms.L2Operator

theorem transpose_norm_le {N : ℕ} {M : Matrix (Fin N) (Fin N) ℂ} (hMh : M.IsHermitian) {b : ℝ} (hb : ‖M‖ ≤ b) :
    ‖Mᵀ‖ ≤ b := by
  refine opNorm_le ((norm_nonneg _).trans hb) fun v => ?_
  have e3 : Mᵀ *ᵥ v = star (M *ᵥ star v) := by
    rw [star_mulVec, star_star, hMh.eq, mulVec_transpose]
  have e4 : ∀ w : Fin N → ℂ, nrm (star w) = nrm w := by
    intro w
    have : nrm (star w) ^ 2 = nrm w ^ 2 := by
      rw [nrm_sq, nrm_sq]
      exact Finset.sum_congr rfl fun i _ => by rw [Pi.star_apply, norm_star]
    exact (sq_eq_sq₀ (nrm_nonneg _) (nrm_nonneg _)).1 this
  rw [e3, e4]
  refine (mulVec_le _ _).trans ?_
  rw [e4]
  exact mul_le_mul_of_nonneg_right hb (nrm_nonneg _)

theorem block_norm_le {N : ℕ} {W1 W2 : Matrix (Fin N) (Fin N) ℂ} {b : ℝ} (h1 : ‖W1‖ ≤ b) (h2 : ‖W2‖ ≤ b) :
    ‖fromBlocks W1 0 0 W2‖ ≤ b := by
  have hb := (norm_nonneg _).trans h1
  refine opNorm_le hb fun v => ?_
  have h5 : nrm (fromBlocks W1 0 0 W2 *ᵥ v) ^ 2 ≤ (b * nrm v) ^ 2 := by
    have e6 : ∀ w : Fin N ⊕ Fin N → ℂ, nrm w ^ 2 = nrm (w ∘ Sum.inl) ^ 2 + nrm (w ∘ Sum.inr) ^ 2 := by
      intro w
      rw [nrm_sq, nrm_sq, nrm_sq, Fintype.sum_sum_type]
      rfl
    have i1 : (fromBlocks W1 0 0 W2 *ᵥ v) ∘ Sum.inl = W1 *ᵥ (v ∘ Sum.inl) := by
      rw [fromBlocks_mulVec]
      simp
    have i2 : (fromBlocks W1 0 0 W2 *ᵥ v) ∘ Sum.inr = W2 *ᵥ (v ∘ Sum.inr) := by
      rw [fromBlocks_mulVec]
      simp
    rw [mul_pow, e6 v, e6 (fromBlocks W1 0 0 W2 *ᵥ v), mul_add, i1, i2, ← mul_pow, ← mul_pow]
    refine add_le_add (pow_le_pow_left₀ (nrm_nonneg _) ((mulVec_le _ _).trans ?_) 2)
      (pow_le_pow_left₀ (nrm_nonneg _) ((mulVec_le _ _).trans ?_) 2)
    · exact mul_le_mul_of_nonneg_right h1 (nrm_nonneg _)
    · exact mul_le_mul_of_nonneg_right h2 (nrm_nonneg _)
  exact (sq_le_sq₀ (nrm_nonneg _) (mul_nonneg hb (nrm_nonneg v))).1 h5

theorem smul_one_norm {N : ℕ} (c : ℂ) : ‖c • (1 : Matrix (Fin N) (Fin N) ℂ)‖ ≤ ‖c‖ := by
  rw [norm_smul]
  exact (mul_le_mul_of_nonneg_left norm_one_le (norm_nonneg _)).trans (by rw [mul_one])

theorem smul_one_hermitian {N : ℕ} (E : ℝ) : ((E : ℂ) • (1 : Matrix (Fin N) (Fin N) ℂ)).IsHermitian := by
  rw [Matrix.IsHermitian, conjTranspose_smul, conjTranspose_one]
  congr 1
  exact Complex.conj_ofReal E

/-- The Green function of vectors with the weights of the anticommutator. -/
theorem green_matrix {N : ℕ} {ι : Type} [Fintype ι] [DecidableEq ι] {M : Matrix (Fin N) (Fin N) ℂ} (hMh : M.IsHermitian)
    {omega eta : ℝ} (heta : 0 < eta) {C A x y : ι → Vec N}
    (hw : ∀ p q, vdot (C p) (C q) + vdot (A q) (A p) = if p = q then 1 else 0)
    (hx : ∀ q, shifted (zOf omega eta) E M "-" *ᵥ x q = C q) (hy : ∀ q, shifted (zOf omega eta) E M "+" *ᵥ y q = A q) {G : Matrix ι ι ℂ}
    (hG : ∀ p q, G p q = vdot (C p) (x q) + vdot (A q) (y p)) :
    Dissipative G eta ∧ IsUnit G ∧ ∀ b : ℝ, ‖M‖ ≤ b → ‖G⁻¹‖ ≤ (‖zOf omega eta‖ + |E| + b) ^ 2 / eta := by
  have hzi : (zOf omega eta).im = eta := by simp [zOf]
  have u2 : IsUnit (shifted (zOf omega eta) E M "+").det := shifted_isUnit hMh heta.ne' "+"
  set W1 := shifted (zOf omega eta) E M "-" with hW1
  set W2 := shifted (zOf omega eta) E M "+" with hW2
  have hHH : (fromBlocks (M - (E : ℂ) • 1) 0 0 ((E : ℂ) • 1 - Mᵀ)).IsHermitian :=
    IsHermitian.fromBlocks (hMh.sub (smul_one_hermitian E)) (by rw [conjTranspose_zero])
      ((smul_one_hermitian E).sub hMh.transpose)
  have hJJ : (pairJ C A)ᴴ * pairJ C A = 1 := by
    ext p q
    rw [pair_mul, hw, Matrix.one_apply]
  have hzH : zOf omega eta • (1 : Matrix (Fin N ⊕ Fin N) (Fin N ⊕ Fin N) ℂ) -
      fromBlocks (M - (E : ℂ) • 1) 0 0 ((E : ℂ) • 1 - Mᵀ) = fromBlocks W1 0 0 W2ᵀ := by
    rw [← fromBlocks_one, fromBlocks_smul, sub_eq_add_neg, fromBlocks_neg, fromBlocks_add]
    congr 1
    · rw [hW1]
      unfold GF.shifted
      rw [if_neg (by decide), add_smul]
      abel
    · simp
    · simp
    · rw [hW2]
      unfold GF.shifted
      rw [if_pos rfl, transpose_add, transpose_smul, transpose_one, sub_smul]
      abel
  set Y : ι → Vec N := fun q => star ((W2ᵀ)⁻¹ *ᵥ star (A q)) with hY
  have hY2 : ∀ q, W2ᵀ *ᵥ star (Y q) = star (A q) := fun q => by
    rw [hY]
    dsimp only
    rw [star_star, mulVec_mulVec, mul_nonsing_inv _ (by rw [det_transpose]; exact u2), one_mulVec]
  have hzX : (zOf omega eta • (1 : Matrix (Fin N ⊕ Fin N) (Fin N ⊕ Fin N) ℂ) -
      fromBlocks (M - (E : ℂ) • 1) 0 0 ((E : ℂ) • 1 - Mᵀ)) * pairJ x Y = pairJ C A := by
    rw [hzH]
    exact block_mul _ _ _ _ _ _ hx hY2
  have hGJ : G = (pairJ C A)ᴴ * pairJ x Y := by
    ext p q
    rw [pair_mul, hG]
    congr 1
    have h3 : vdot (A q) (y p) = star (A q) ⬝ᵥ y p := rfl
    have h4 : vdot (Y q) (A p) = star (Y q) ⬝ᵥ A p := rfl
    rw [h3, h4, ← hy p, ← hY2 q, mulVec_transpose, dotProduct_mulVec]
  obtain ⟨c1, c2, c3⟩ := compressed hHH hJJ hzi heta hzX hGJ
  refine ⟨c1, c2, fun b hb => c3 _ ?_⟩
  have hW1n : ‖W1‖ ≤ ‖zOf omega eta‖ + |E| + b := by
    rw [hW1]
    unfold GF.shifted
    rw [if_neg (by decide)]
    refine (norm_sub_le _ _).trans (add_le_add ((smul_one_norm _).trans ((norm_add_le _ _).trans ?_)) hb)
    rw [Complex.norm_real, Real.norm_eq_abs]
  have hW2n : ‖W2ᵀ‖ ≤ ‖zOf omega eta‖ + |E| + b := by
    have e1 : W2ᵀ = (zOf omega eta - E) • (1 : Matrix (Fin N) (Fin N) ℂ) + Mᵀ := by
      rw [hW2]
      unfold GF.shifted
      rw [if_pos rfl, transpose_add, transpose_smul, transpose_one]
    rw [e1]
    refine (norm_add_le _ _).trans (add_le_add ((smul_one_norm _).trans ((norm_sub_le _ _).trans ?_))
      (transpose_norm_le hMh hb))
    rw [Complex.norm_real, Real.norm_eq_abs]
  rw [hzH]
  exact block_norm_le hW1n hW2n

/-- The Green function of the cluster exists, is dissipative and invertible. -/
theorem clusterGreen_ok (hH : IsAdj H H) {Bf B0 : List ℕ} (hBf : Bf.Nodup) (hHf : MapsTo H Bf Bf) (h0 : B0.Nodup)
    (hC : ∀ q < 2 * n, MapsTo (create q) B0 Bf) (hA : ∀ q < 2 * n, MapsTo (annihilate q) B0 Bf)
    {GS : Vec B0.length} (hnorm : vdot GS GS = 1) {omega eta : ℝ} (heta : 0 < eta) :
    ∃ G, IsClusterGreen n H E (stateOf B0 GS) (zOf omega eta) G ∧ Dissipative G eta ∧ IsUnit G ∧
      ∀ b : ℝ, ‖opMat Bf H‖ ≤ b → ‖G⁻¹‖ ≤ (‖zOf omega eta‖ + |E| + b) ^ 2 / eta := by
  have hMh : (opMat Bf H).IsHermitian := opMat_adj hH
  have hpp : fockInner (stateOf B0 GS) (stateOf B0 GS) = 1 := by rw [fockInner_stateOf h0, hnorm]
  have hCs : ∀ p, create (orbital n p) (stateOf B0 GS) = stateOf Bf (opMat2 Bf B0 (create (orbital n p)) *ᵥ GS) := fun p =>
    apply_stateOf h0 hBf (hC _ (orbital_lt p)) GS
  have hAs : ∀ p, annihilate (orbital n p) (stateOf B0 GS) =
      stateOf Bf (opMat2 Bf B0 (annihilate (orbital n p)) *ᵥ GS) := fun p =>
    apply_stateOf h0 hBf (hA _ (orbital_lt p)) GS
  have u1 : IsUnit (shifted (zOf omega eta) E (opMat Bf H) "-").det := shifted_isUnit hMh heta.ne' "-"
  have u2 : IsUnit (shifted (zOf omega eta) E (opMat Bf H) "+").det := shifted_isUnit hMh heta.ne' "+"
  have hx1 : ∀ q : Fin 2 × Fin n, ∃ x, shifted (zOf omega eta) E (opMat Bf H) "-" *ᵥ x =
      opMat2 Bf B0 (create (orbital n q)) *ᵥ GS := fun q =>
    ⟨(GF.shifted (zOf omega eta) E (opMat Bf H) "-")⁻¹ *ᵥ (opMat2 Bf B0 (create (orbital n q)) *ᵥ GS), by
      rw [mulVec_mulVec, mul_nonsing_inv _ u1, one_mulVec]⟩
  have hy1 : ∀ q : Fin 2 × Fin n, ∃ y, shifted (zOf omega eta) E (opMat Bf H) "+" *ᵥ y =
      opMat2 Bf B0 (annihilate (orbital n q)) *ᵥ GS := fun q =>
    ⟨(GF.shifted (zOf omega eta) E (opMat Bf H) "+")⁻¹ *ᵥ (opMat2 Bf B0 (annihilate (orbital n q)) *ᵥ GS), by
      rw [mulVec_mulVec, mul_nonsing_inv _ u2, one_mulVec]⟩
  choose x hx using hx1
  choose y hy using hy1
  refine ⟨.of fun p q => vdot (opMat2 Bf B0 (create (orbital n p)) *ᵥ GS) (x q) +
    vdot (opMat2 Bf B0 (annihilate (orbital n q)) *ᵥ GS) (y p), ⟨fun q => stateOf Bf (x q), fun p => stateOf Bf (y p),
      fun q => ?_, fun p => ?_, fun p q => ?_⟩, green_matrix hMh heta (fun p q => ?_) hx hy fun p q => rfl⟩
  · exact green_x_state h0 hBf hHf (hC _ (orbital_lt q)) (hx q)
  · exact green_y_state h0 hBf hHf (hA _ (orbital_lt p)) (hy p)
  · rw [hCs, hAs, fockInner_stateOf hBf, fockInner_stateOf hBf]
    rfl
  · have h1 := anticommutator_weight (stateOf B0 GS) p q
    rwa [hCs, hCs, hAs, hAs, fockInner_stateOf hBf, fockInner_stateOf hBf, hpp] at h1

end

end Verif.Demo
