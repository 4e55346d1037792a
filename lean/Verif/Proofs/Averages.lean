import Verif.Spec.Averages
import Verif.Proofs.Spin
/-! Total spin matrices and averages. -/

namespace Verif
open Spec

/-- the accumulator represents `X` (initially `0.0`) -/
def AccRepr (n : ℕ) (acc : Option SMat) (X : Matrix (Fin (2 ^ n)) (Fin (2 ^ n)) ℂ) : Prop :=
  match acc with
  | none => X = 0
  | some M => Repr n M X

theorem add_repr {n : ℕ} {A B : SMat} {X Y : Matrix (Fin (2 ^ n)) (Fin (2 ^ n)) ℂ}
    (hA : Repr n A X) (hB : Repr n B Y) : ∃ M, A.add B = .ok M ∧ Repr n M (X + Y) := by
  unfold SMat.add
  rw [if_pos (hA.1.trans hB.1.symm)]
  refine ⟨_, rfl, hA.1, ?_⟩
  rw [← hA.2, ← hB.2]
  rfl

theorem accumulate_repr {n : ℕ} {acc : Option SMat} {B : SMat}
    {X Y : Matrix (Fin (2 ^ n)) (Fin (2 ^ n)) ℂ}
    (hA : AccRepr n acc X) (hB : Repr n B Y) :
    ∃ M, accumulate acc B = .ok (some M) ∧ Repr n M (X + Y) := by
  cases acc with
  | none =>
    refine ⟨B, rfl, ?_⟩
    rw [show X = 0 from hA, zero_add]
    exact hB
  | some T =>
    obtain ⟨M, hM, h⟩ := add_repr hA hB
    refine ⟨M, ?_, h⟩
    simp only [accumulate, hM]
    rfl

theorem spinPass_repr (n i : ℤ) (h0 : 0 ≤ i) (hi : i < n) (S : SMat) (hS : S.dim = 2)
    (A : Matrix (Fin 2) (Fin 2) ℂ) (hA : ∀ r c : Fin 2, S.get r c = A r c) :
    ∃ M, spinPass S n i = .ok M ∧ Repr n.toNat M (siteOp n.toNat i.toNat A) := by
  have hlt : i.toNat < n.toNat := by omega
  have e : (n - i - 1).toNat = n.toNat - i.toNat - 1 := by omega
  unfold spinPass
  rw [shl1_of_nonneg h0, shl1_of_nonneg (by omega : 0 ≤ n - i - 1), e]
  refine ⟨_, rfl, ?_, ?_⟩
  · simp only [SMat.kron, SMat.identity, hS]
    rw [show 2 * 2 ^ i.toNat = 2 ^ (i.toNat + 1) by rw [pow_succ, mul_comm], ← pow_add]
    congr 1
    omega
  · ext a b
    exact single_get_of _ _ hlt S hS A hA a b

/-- the imaginary part of `S^y` -/
noncomputable def syHalf : Matrix (Fin 2) (Fin 2) ℂ := !![0, -1 / 2; 1 / 2, 0]

theorem sy_get (r c : Fin 2) : syMatrixImag.get r c = syHalf r c := by
  fin_cases r <;> fin_cases c <;> simp [syMatrixImag, syHalf]; ring

theorem sx_get (r c : Fin 2) : sxMatrix.get r c = spinHalf .x r c := by
  fin_cases r <;> fin_cases c <;> simp [sxMatrix, spinHalf]

theorem sz_get (r c : Fin 2) : szMatrix.get r c = spinHalf .z r c := by
  fin_cases r <;> fin_cases c <;> simp [szMatrix, spinHalf]; ring

theorem syHalf_I : Complex.I • syHalf = spinHalf .y := by
  ext r c
  fin_cases r <;> fin_cases c <;> simp [syHalf, spinHalf] <;> ring

theorem totalSpinLoop_repr (n : ℤ) (l : List ℤ) (hl : ∀ i ∈ l, 0 ≤ i ∧ i < n)
    (ax ay az : Option SMat) (X Y Z : Matrix (Fin (2 ^ n.toNat)) (Fin (2 ^ n.toNat)) ℂ)
    (hx : AccRepr n.toNat ax X) (hy : AccRepr n.toNat ay Y) (hz : AccRepr n.toNat az Z) :
    ∃ bx by' bz, totalSpinLoop n l (ax, ay, az) = .ok (bx, by', bz) ∧
      (l ≠ [] → ∃ sx sy sz, bx = some sx ∧ by' = some sy ∧ bz = some sz) ∧
      AccRepr n.toNat bx (X + (l.map fun i => siteOp n.toNat i.toNat (spinHalf .x)).sum) ∧
      AccRepr n.toNat by' (Y + (l.map fun i => siteOp n.toNat i.toNat syHalf).sum) ∧
      AccRepr n.toNat bz (Z + (l.map fun i => siteOp n.toNat i.toNat (spinHalf .z)).sum) := by
  induction l generalizing ax ay az X Y Z with
  | nil => exact ⟨ax, ay, az, rfl, by simp, by simpa using hx, by simpa using hy, by simpa using hz⟩
  | cons i l ih =>
    obtain ⟨h0, hi⟩ := hl i (by simp)
    obtain ⟨mx, hmx, rx⟩ := spinPass_repr n i h0 hi sxMatrix rfl _ sx_get
    obtain ⟨mz, hmz, rz⟩ := spinPass_repr n i h0 hi szMatrix rfl _ sz_get
    obtain ⟨my, hmy, ry⟩ := spinPass_repr n i h0 hi syMatrixImag rfl _ sy_get
    obtain ⟨sx, hsx, tx⟩ := accumulate_repr hx rx
    obtain ⟨sz, hsz, tz⟩ := accumulate_repr hz rz
    obtain ⟨sy, hsy, ty⟩ := accumulate_repr hy ry
    obtain ⟨bx, by', bz, h1, h2, h3⟩ := ih (fun j hj => hl j (by simp [hj])) (some sx) (some sy) (some sz)
      _ _ _ tx ty tz
    refine ⟨bx, by', bz, ?_, ?_, ?_⟩
    · simp only [totalSpinLoop, hmx, hmy, hmz]
      simp only [Bind.bind, Except.bind, hsx, hsy, hsz]
      exact h1
    · intro _
      by_cases hne : l = []
      · subst hne
        simp only [totalSpinLoop] at h1
        cases h1
        exact ⟨_, _, _, rfl, rfl, rfl⟩
      · exact h2 hne
    · simpa only [List.map_cons, List.sum_cons, ← add_assoc] using h3

theorem sum_range_list {M : Type _} [AddCommMonoid M] (m : ℕ) (f : ℕ → M) :
    ∑ i ∈ Finset.range m, f i = ((List.range m).map f).sum := by
  induction m with
  | zero => simp
  | succ m ih => simp [Finset.sum_range_succ, List.range_succ, ih]

theorem totalSpinMatrices_repr (n : ℤ) (hn : 0 < n) :
    ∃ sx sy sz, totalSpinMatrices n = .ok (sx, sy, sz) ∧
      Repr n.toNat sx (∑ i ∈ Finset.range n.toNat, siteOp n.toNat i (spinHalf .x)) ∧
      Repr n.toNat sy (∑ i ∈ Finset.range n.toNat, siteOp n.toNat i syHalf) ∧
      Repr n.toNat sz (∑ i ∈ Finset.range n.toNat, siteOp n.toNat i (spinHalf .z)) := by
  obtain ⟨bx, by', bz, h1, h2, h3, h4, h5⟩ := totalSpinLoop_repr n
    ((List.range n.toNat).map (fun i : ℕ => (i : ℤ)))
    (by intro i hi; simp only [List.mem_map, List.mem_range] at hi; omega) none none none 0 0 0 rfl rfl rfl
  obtain ⟨sx, sy, sz, rfl, rfl, rfl⟩ := h2 (by
    have : n.toNat ≠ 0 := by omega
    simpa using this)
  refine ⟨sx, sy, sz, ?_, ?_, ?_, ?_⟩
  · unfold totalSpinMatrices
    simp only [pyAssert, hn, decide_true, h1]
    rfl
  · simpa [AccRepr, List.map_map, Function.comp_def, sum_range_list] using h3
  · simpa [AccRepr, List.map_map, Function.comp_def, sum_range_list] using h4
  · simpa [AccRepr, List.map_map, Function.comp_def, sum_range_list] using h5

theorem dotKet_repr {n : ℕ} {A : SMat} {X : Matrix (Fin (2 ^ n)) (Fin (2 ^ n)) ℂ} (hA : Repr n A X)
    (v : Ket) (hv : v.dim = 2 ^ n) :
    ∃ w, A.dotKet v = .ok w ∧ w.dim = 2 ^ n ∧ w.toVec (2 ^ n) = X.mulVec (v.toVec (2 ^ n)) := by
  unfold SMat.dotKet
  rw [if_pos (hA.1.trans hv.symm)]
  refine ⟨_, rfl, hA.1, ?_⟩
  ext r
  simp only [Ket.toVec, Matrix.mulVec, dotProduct, ← hA.2, hA.1, SMat.toMatrix, Matrix.of_apply,
    Finset.sum_range]

theorem vdot_eq (d : ℕ) (a b : Ket) (ha : a.dim = d) (hb : b.dim = d) :
    vdot a b = .ok (dotProduct (star (a.toVec d)) (b.toVec d)) := by
  unfold vdot
  rw [if_pos (ha.trans hb.symm), ha, Finset.sum_range]
  rfl

theorem norm_sq (v : Ket) (d : ℕ) (hv : v.dim = d) :
    ((v.norm : ℂ)) ^ 2 = dotProduct (star (v.toVec d)) (v.toVec d) := by
  unfold Ket.norm
  rw [← Complex.ofReal_pow, Real.sq_sqrt (Finset.sum_nonneg fun _ _ => by positivity), hv,
    Finset.sum_range]
  simp only [dotProduct, Ket.toVec, Pi.star_apply, Complex.ofReal_sum]
  apply Finset.sum_congr rfl
  intro k _
  rw [Complex.star_def, Complex.conj_mul']
  push_cast
  rfl

theorem normalized_toVec (v : Ket) (d : ℕ) :
    v.normalized.toVec d = ((v.norm : ℂ)⁻¹) • v.toVec d := by
  ext i
  simp only [Ket.normalized, Ket.toVec, Pi.smul_apply, smul_eq_mul]
  rw [div_eq_inv_mul]

theorem normalized_quad (v : Ket) (d : ℕ) (hv : v.dim = d) (X Y : Matrix (Fin d) (Fin d) ℂ) :
    dotProduct (star (X.mulVec (v.normalized.toVec d))) (Y.mulVec (v.normalized.toVec d)) =
      expectation (X.conjTranspose * Y) (v.toVec d) := by
  rw [normalized_toVec]
  unfold expectation
  rw [← norm_sq v d hv]
  simp only [Matrix.mulVec_smul, star_smul, smul_dotProduct, dotProduct_smul, smul_eq_mul]
  rw [Matrix.star_mulVec, ← Matrix.dotProduct_mulVec, Matrix.mulVec_mulVec]
  rw [Complex.star_def, map_inv₀, Complex.conj_ofReal]
  rw [div_eq_mul_inv, ← inv_pow]
  ring

theorem normalized_quad_one (v : Ket) (d : ℕ) (hv : v.dim = d) (Y : Matrix (Fin d) (Fin d) ℂ) :
    dotProduct (star (v.normalized.toVec d)) (Y.mulVec (v.normalized.toVec d)) =
      expectation Y (v.toVec d) := by
  have := normalized_quad v d hv 1 Y
  simpa using this

theorem expectation_smul {d : ℕ} (c : ℂ) (M : Matrix (Fin d) (Fin d) ℂ) (v : Fin d → ℂ) :
    expectation (c • M) v = c * expectation M v := by
  unfold expectation
  rw [Matrix.smul_mulVec, dotProduct_smul, smul_eq_mul, mul_div_assoc]

theorem expectation_add {d : ℕ} (M N : Matrix (Fin d) (Fin d) ℂ) (v : Fin d → ℂ) :
    expectation (M + N) v = expectation M v + expectation N v := by
  unfold expectation
  rw [Matrix.add_mulVec, dotProduct_add, add_div]

theorem expectation_scale {d : ℕ} (M : Matrix (Fin d) (Fin d) ℂ) (v : Fin d → ℂ) (c : ℂ) (hc : c ≠ 0) :
    expectation M (c • v) = expectation M v := by
  unfold expectation
  simp only [Matrix.mulVec_smul, star_smul, smul_dotProduct, dotProduct_smul, smul_eq_mul]
  rw [← mul_assoc, ← mul_assoc, mul_div_mul_left]
  exact mul_ne_zero hc (star_ne_zero.mpr hc)

theorem norm_im (d : ℕ) (v : Fin d → ℂ) : (dotProduct (star v) v).im = 0 ∧
    0 ≤ (dotProduct (star v) v).re := by
  simp only [dotProduct, Complex.im_sum, Complex.re_sum, Pi.star_apply, Complex.star_def,
    Complex.conj_mul', ← Complex.ofReal_pow, Complex.ofReal_im, Complex.ofReal_re]
  exact ⟨Finset.sum_const_zero, Finset.sum_nonneg fun _ _ => by positivity⟩

theorem expectation_real {d : ℕ} (M : Matrix (Fin d) (Fin d) ℂ) (hM : M.conjTranspose = M)
    (v : Fin d → ℂ) : (expectation M v).im = 0 := by
  rw [← Complex.conj_eq_iff_im]
  unfold expectation
  rw [map_div₀]
  congr 1
  · change star _ = _
    rw [← Matrix.star_dotProduct, Matrix.star_mulVec, ← Matrix.dotProduct_mulVec, hM]
  · rw [Complex.conj_eq_iff_im]
    exact (norm_im d v).1

theorem expectation_sq_nonneg {d : ℕ} (M : Matrix (Fin d) (Fin d) ℂ) (hM : M.conjTranspose = M)
    (v : Fin d → ℂ) : 0 ≤ (expectation (M * M) v).re := by
  unfold expectation
  have h : dotProduct (star v) ((M * M).mulVec v) = dotProduct (star (M.mulVec v)) (M.mulVec v) := by
    rw [Matrix.star_mulVec, ← Matrix.dotProduct_mulVec, Matrix.mulVec_mulVec, hM]
  rw [h]
  obtain ⟨h1, h2⟩ := norm_im d v
  obtain ⟨h3, h4⟩ := norm_im d (M.mulVec v)
  rw [Complex.div_re, h1, h3]
  simp only [mul_zero, zero_div, add_zero]
  exact div_nonneg (mul_nonneg h4 h2) (Complex.normSq_nonneg _)

end Verif
