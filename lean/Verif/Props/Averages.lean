import Verif.Proofs.Averages
import Verif.Props.Spin
/-!
# C37-C38: total spin and averages
-/

namespace Verif
open Spec

/-- The total spin component `sum_i S_i^o` of `n` spins, as the sum of the matrices of the
single-spin operators. -/
noncomputable def totalSpin (n : ℤ) (o : SpinOtype) :
    Matrix (Fin (2 ^ n.toNat)) (Fin (2 ^ n.toNat)) ℂ :=
  ∑ i ∈ Finset.range n.toNat, spinMat n o i

theorem totalSpin_eq (n : ℤ) (o : SpinOtype) :
    totalSpin n o = ∑ i ∈ Finset.range n.toNat, siteOp n.toNat i (spinHalf o) := by
  apply Finset.sum_congr rfl
  intro i hi
  have := Finset.mem_range.mp hi
  rw [spinMat_eq (by omega)]
  rfl

theorem totalSpin_adj (n : ℤ) (o : SpinOtype) (h : (spinHalf o).conjTranspose = spinHalf o) :
    (totalSpin n o).conjTranspose = totalSpin n o := by
  rw [totalSpin_eq, Matrix.conjTranspose_sum]
  apply Finset.sum_congr rfl
  intro i _
  rw [siteOp_conjTranspose, h]

theorem totalSpin_commutator (n : ℤ) (a b c : SpinOtype)
    (h : ∀ i j : ℤ, 0 ≤ i ∧ i < n → 0 ≤ j ∧ j < n →
      spinMat n a i * spinMat n b j - spinMat n b j * spinMat n a i =
      if i = j then Complex.I • spinMat n c i else 0) :
    totalSpin n a * totalSpin n b - totalSpin n b * totalSpin n a = Complex.I • totalSpin n c := by
  unfold totalSpin
  rw [Finset.sum_mul_sum, Finset.sum_mul_sum, Finset.sum_comm (s := Finset.range n.toNat)
    (t := Finset.range n.toNat) (f := fun i j => spinMat n b i * spinMat n a j), ← Finset.sum_sub_distrib,
    Finset.smul_sum]
  apply Finset.sum_congr rfl
  intro i hi
  rw [← Finset.sum_sub_distrib]
  have hi' := Finset.mem_range.mp hi
  rw [Finset.sum_eq_single i]
  · rw [h i i (by omega) (by omega), if_pos rfl]
  · intro j hj hne
    have hj' := Finset.mem_range.mp hj
    rw [h i j (by omega) (by omega), if_neg (by exact_mod_cast hne.symm)]
  · intro hn
    exact absurd hi hn

/-- **C37.** `TotalSpinMatrices(n)` / `TotalSpin(n)` for `n >= 1` return `2^n`-dimensional matrices:
the sums of the single-spin matrices for x and z, and for y a real matrix which times `1j` is the sum
of the single-spin y matrices (so it is the entrywise imaginary part).  For `n <= 0` it raises
AssertionError. -/
theorem C37_total_spin_matrices (n : ℤ) :
    (1 ≤ n → ∃ sx sy sz, totalSpinMatrices n = .ok (sx, sy, sz) ∧
      (sx.dim = 2 ^ n.toNat ∧ sx.toMatrix (2 ^ n.toNat) = totalSpin n .x) ∧
      (sy.dim = 2 ^ n.toNat ∧ Complex.I • sy.toMatrix (2 ^ n.toNat) = totalSpin n .y ∧
        ∀ r c, sy.toMatrix (2 ^ n.toNat) r c = ((totalSpin n .y r c).im : ℂ)) ∧
      (sz.dim = 2 ^ n.toNat ∧ sz.toMatrix (2 ^ n.toNat) = totalSpin n .z)) ∧
    (n ≤ 0 → totalSpinMatrices n = .error .assertionError) := by
  constructor
  · intro hn
    obtain ⟨sx, sy, sz, h, ⟨h1, h2⟩, ⟨h3, h4⟩, h5, h6⟩ := totalSpinMatrices_repr n (by omega)
    have hy : Complex.I • sy.toMatrix (2 ^ n.toNat) = totalSpin n .y := by
      rw [totalSpin_eq, h4, Finset.smul_sum]
      apply Finset.sum_congr rfl
      intro i _
      rw [← siteOp_smul, syHalf_I]
    refine ⟨sx, sy, sz, h, ⟨h1, h2.trans (totalSpin_eq n .x).symm⟩, ⟨h3, hy, ?_⟩, h5,
      h6.trans (totalSpin_eq n .z).symm⟩
    intro r c
    have hre : (sy.toMatrix (2 ^ n.toNat) r c).im = 0 := by
      rw [h4, Matrix.sum_apply, Complex.im_sum]
      apply Finset.sum_eq_zero
      intro i _
      simp only [siteOp, Matrix.of_apply]
      split
      · generalize digit r i = p
        generalize digit c i = q
        fin_cases p <;> fin_cases q <;> simp [syHalf]
      · rfl
    rw [← hy, Matrix.smul_apply, smul_eq_mul, Complex.I_mul_im]
    apply Complex.ext <;> simp [hre]
  · intro hn
    unfold totalSpinMatrices
    simp only [pyAssert, show ¬ (n > 0) by omega, decide_false]
    rfl

/-- **C37** (algebra). The total spin components obey the angular-momentum algebra and are
Hermitian. -/
theorem C37_angular_momentum (n : ℤ) :
    totalSpin n .x * totalSpin n .y - totalSpin n .y * totalSpin n .x = Complex.I • totalSpin n .z ∧
    totalSpin n .y * totalSpin n .z - totalSpin n .z * totalSpin n .y = Complex.I • totalSpin n .x ∧
    totalSpin n .z * totalSpin n .x - totalSpin n .x * totalSpin n .z = Complex.I • totalSpin n .y ∧
    (totalSpin n .x).conjTranspose = totalSpin n .x ∧
    (totalSpin n .y).conjTranspose = totalSpin n .y ∧
    (totalSpin n .z).conjTranspose = totalSpin n .z := by
  refine ⟨totalSpin_commutator n _ _ _ fun i j hi hj => (C30_su2_algebra n i j hi hj).1,
    totalSpin_commutator n _ _ _ fun i j hi hj => (C30_su2_algebra n i j hi hj).2.1,
    totalSpin_commutator n _ _ _ fun i j hi hj => (C30_su2_algebra n i j hi hj).2.2.1, ?_, ?_, ?_⟩ <;>
    apply totalSpin_adj <;> ext r c <;> fin_cases r <;> fin_cases c <;> simp [spinHalf]

/-- Non-vacuity of C37: two spins, 4-dimensional matrices. -/
example : ∃ sx sy sz, totalSpinMatrices 2 = .ok (sx, sy, sz) ∧ sx.dim = 4 := by
  obtain ⟨sx, sy, sz, h, ⟨h1, -⟩, -⟩ := (C37_total_spin_matrices 2).1 (by norm_num)
  exact ⟨sx, sy, sz, h, by simpa using h1⟩

theorem averages_eq (n : ℤ) (hn : 1 ≤ n) (ket : Ket) (hd : ket.dim = 2 ^ n.toNat) :
    totalSpinAverages n ket =
      .ok (expectation (totalSpin n .x * totalSpin n .x + totalSpin n .y * totalSpin n .y +
          totalSpin n .z * totalSpin n .z) (ket.toVec _),
        expectation (totalSpin n .x) (ket.toVec _), expectation (totalSpin n .y) (ket.toVec _),
        expectation (totalSpin n .z) (ket.toVec _)) := by
  obtain ⟨sx, sy, sz, h, ⟨h1, h2⟩, ⟨h3, h4, -⟩, h5, h6⟩ := (C37_total_spin_matrices n).1 hn
  obtain ⟨-, -, -, ax, ay, az⟩ := C37_angular_momentum n
  have hdn : ket.normalized.dim = 2 ^ n.toNat := hd
  obtain ⟨kx, e1, d1, v1⟩ := dotKet_repr (n := n.toNat) ⟨h1, h2⟩ ket.normalized hdn
  obtain ⟨ky, e2, d2, v2⟩ := dotKet_repr (n := n.toNat) ⟨h3, rfl⟩ ket.normalized hdn
  obtain ⟨kz, e3, d3, v3⟩ := dotKet_repr (n := n.toNat) ⟨h5, h6⟩ ket.normalized hdn
  unfold totalSpinAverages
  rw [h]
  simp only [Bind.bind, Except.bind, e1, e2, e3, vdot_eq _ _ _ hdn d1, vdot_eq _ _ _ hdn d2,
    vdot_eq _ _ _ hdn d3, vdot_eq _ _ _ d1 d1, vdot_eq _ _ _ d2 d2, vdot_eq _ _ _ d3 d3, v1, v2, v3,
    normalized_quad _ _ hd, normalized_quad_one _ _ hd, ax, az]
  have hyy : (sy.toMatrix (2 ^ n.toNat)).conjTranspose * sy.toMatrix (2 ^ n.toNat) =
      totalSpin n .y * totalSpin n .y := by
    rw [show totalSpin n .y * totalSpin n .y =
      (totalSpin n .y).conjTranspose * totalSpin n .y by rw [ay], ← h4]
    rw [Matrix.conjTranspose_smul, Matrix.smul_mul, Matrix.mul_smul, smul_smul]
    simp
  rw [hyy, ← h4, expectation_smul, expectation_add, expectation_add, h4]
  simp only [pure, Except.pure]
  refine congrArg Except.ok (Prod.ext ?_ rfl)
  change _ + _ + _ = _ + _ + _
  rw [add_comm (expectation (totalSpin n .y * totalSpin n .y) _)]

/-- **C38.** For every nonzero ket of a system of `n >= 1` spins the function returned by
`TotalSpinAverages(n)` yields the expectation values of `S^2`, `S^x`, `S^y`, `S^z`; all four are real
and that of `S^2` is not negative. -/
theorem C38_averages (n : ℤ) (hn : 1 ≤ n) (ket : Ket) (hd : ket.dim = 2 ^ n.toNat)
    (_hne : ket.toVec (2 ^ n.toNat) ≠ 0) :
    ∃ s2 sx sy sz, totalSpinAverages n ket = .ok (s2, sx, sy, sz) ∧
      s2 = expectation (totalSpin n .x * totalSpin n .x + totalSpin n .y * totalSpin n .y +
          totalSpin n .z * totalSpin n .z) (ket.toVec _) ∧
      sx = expectation (totalSpin n .x) (ket.toVec _) ∧
      sy = expectation (totalSpin n .y) (ket.toVec _) ∧
      sz = expectation (totalSpin n .z) (ket.toVec _) ∧
      0 ≤ s2.re ∧ s2.im = 0 ∧ sx.im = 0 ∧ sy.im = 0 ∧ sz.im = 0 := by
  obtain ⟨-, -, -, ax, ay, az⟩ := C37_angular_momentum n
  refine ⟨_, _, _, _, averages_eq n hn ket hd, rfl, rfl, rfl, rfl, ?_, ?_, ?_, ?_, ?_⟩
  · rw [expectation_add, expectation_add, Complex.add_re, Complex.add_re]
    have := expectation_sq_nonneg _ ax (ket.toVec _)
    have := expectation_sq_nonneg _ ay (ket.toVec _)
    have := expectation_sq_nonneg _ az (ket.toVec _)
    linarith
  · apply expectation_real
    simp only [Matrix.conjTranspose_add, Matrix.conjTranspose_mul, ax, ay, az]
  · exact expectation_real _ ax _
  · exact expectation_real _ ay _
  · exact expectation_real _ az _

/-- **C38** (rescaling). Multiplying the ket by a nonzero number changes nothing. -/
theorem C38_rescaling (n : ℤ) (hn : 1 ≤ n) (ket : Ket) (hd : ket.dim = 2 ^ n.toNat) (c : ℂ)
    (hc : c ≠ 0) : totalSpinAverages n (ket.scale c) = totalSpinAverages n ket := by
  have hv : (ket.scale c).toVec (2 ^ n.toNat) = c • ket.toVec (2 ^ n.toNat) := rfl
  rw [averages_eq n hn ket hd, averages_eq n hn (ket.scale c) hd, hv]
  simp only [expectation_scale _ _ _ hc]

/-- **C38** (`QuantumAverages`). `QuantumAverages(ket, operator)` is the expectation value for every
operator, so it gives the same numbers for the total spin matrices; a ket of another dimension raises
ValueError in both. -/
theorem C38_quantum_averages (ket : Ket) (M : SMat) :
    (M.dim = ket.dim → quantumAverages ket M =
      .ok (expectation (M.toMatrix ket.dim) (ket.toVec ket.dim))) ∧
    (M.dim ≠ ket.dim → quantumAverages ket M = .error .valueError) ∧
    (∀ n, 1 ≤ n → ket.dim ≠ 2 ^ n.toNat → totalSpinAverages n ket = .error .valueError) := by
  refine ⟨?_, ?_, ?_⟩
  · intro h
    unfold quantumAverages SMat.dotKet
    rw [if_pos h]
    simp only [Bind.bind, Except.bind, vdot_eq ket.dim ket ket rfl rfl]
    rw [vdot_eq ket.dim ket _ rfl h]
    simp only [pure, Except.pure, expectation]
    congr 3
    ext r
    simp only [Ket.toVec, Matrix.mulVec, dotProduct, h, SMat.toMatrix, Matrix.of_apply, Finset.sum_range]
  · intro h
    unfold quantumAverages SMat.dotKet
    rw [if_neg h]
    rfl
  · intro n hn hd
    obtain ⟨sx, sy, sz, h, ⟨h1, h2⟩, -⟩ := (C37_total_spin_matrices n).1 hn
    unfold totalSpinAverages
    rw [h]
    simp only [Bind.bind, Except.bind, SMat.dotKet]
    rw [if_neg (by rw [h1]; exact fun e => hd e.symm)]

/-- Non-vacuity of C38: the all-up state of three spins is an admissible nonzero ket. -/
example : ∃ ket : Ket, ket.dim = 2 ^ (3 : ℤ).toNat ∧ ket.toVec (2 ^ (3 : ℤ).toNat) ≠ 0 := by
  refine ⟨⟨8, fun i => if i = 0 then 1 else 0⟩, rfl, ?_⟩
  intro h
  have := congrFun h ⟨0, by decide⟩
  simp [Ket.toVec] at this

end Verif
