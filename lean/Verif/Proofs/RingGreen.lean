import Verif.Proofs.RingModes
import Mathlib.Analysis.SpecialFunctions.Trigonometric.Basic
/-!
# Lemmas for C86: the Green function of a momentum mode
-/

namespace Verif.Demo

open Spec Matrix Lanczos GF

theorem isAdj_smul {A A' : Module.End ℂ Fock} (h : IsAdj A A') (z : ℂ) : IsAdj (z • A) (star z • A') := by
  intro S T
  have := h S T
  unfold matrixElement at this ⊢
  rw [LinearMap.smul_apply, LinearMap.smul_apply, Finsupp.smul_apply, Finsupp.smul_apply, this, smul_eq_mul,
    smul_eq_mul, map_mul, starRingEnd_apply, starRingEnd_apply, star_star]

theorem isAdj_sum {ι : Type _} {s : Finset ι} {A A' : ι → Module.End ℂ Fock} (h : ∀ i ∈ s, IsAdj (A i) (A' i)) :
    IsAdj (∑ i ∈ s, A i) (∑ i ∈ s, A' i) := by
  intro S T
  unfold matrixElement
  rw [LinearMap.sum_apply, LinearMap.sum_apply, Finsupp.finsetSum_apply, Finsupp.finsetSum_apply, map_sum]
  exact Finset.sum_congr rfl fun i hi => h i hi S T

theorem isAdj_mode {n : ℕ} {T : Finset ℕ} {w : ℂ} (hw : star w = w⁻¹) : IsAdj (modeC n T w) (modeA n T w) := by
  unfold modeC modeA
  refine isAdj_sum fun s _ => isAdj_sum fun j _ => ?_
  have := isAdj_smul (isAdj_create_annihilate (s * n + j)) (w ^ j)
  rwa [star_pow, hw] at this

theorem vdot_smul_left {N : ℕ} (a b : Vec N) (z : ℂ) : vdot (z • a) b = star z * vdot a b := by
  rw [← vdot_conj, vdot_smul_right, star_mul', vdot_conj]

theorem vdot_sum_left {ι : Type} {N : ℕ} (s : Finset ι) (f : ι → Vec N) (b : Vec N) :
    vdot (∑ j ∈ s, f j) b = ∑ j ∈ s, vdot (f j) b := by
  rw [← vdot_conj, vdot_sum_right, star_sum]
  exact Finset.sum_congr rfl fun j _ => vdot_conj _ _

section

variable {n S : ℕ} {T : Finset ℕ} {B0 Bp Bh : List ℕ} {w : ℂ}

theorem opMat2_modeC : opMat2 Bp B0 (modeC n T w) =
    ∑ p ∈ T ×ˢ Finset.range n, w ^ p.2 • opMat2 Bp B0 (create (p.1 * n + p.2)) := by
  rw [Finset.sum_product, modeC, map_sum]
  refine Finset.sum_congr rfl fun s _ => ?_
  rw [map_sum]
  exact Finset.sum_congr rfl fun j _ => map_smul _ _ _

theorem opMat2_modeA : opMat2 Bh B0 (modeA n T w) =
    ∑ p ∈ T ×ˢ Finset.range n, w⁻¹ ^ p.2 • opMat2 Bh B0 (annihilate (p.1 * n + p.2)) := by
  rw [Finset.sum_product, modeA, map_sum]
  refine Finset.sum_congr rfl fun s _ => ?_
  rw [map_sum]
  exact Finset.sum_congr rfl fun j _ => map_smul _ _ _

theorem mapsTo_modeC (h : ∀ s ∈ T, ∀ j < n, MapsTo (create (s * n + j)) B0 Bp) :
    MapsTo (modeC n T w) B0 Bp :=
  .sum fun s hs => .sum fun j hj => (h s hs j (Finset.mem_range.1 hj)).smul _

theorem mapsTo_modeA (h : ∀ s ∈ T, ∀ j < n, MapsTo (annihilate (s * n + j)) B0 Bh) :
    MapsTo (modeA n T w) B0 Bh :=
  .sum fun s hs => .sum fun j hj => (h s hs j (Finset.mem_range.1 hj)).smul _

/-- A creation mode raises the energy by the band energy. -/
theorem modeC_energy (hn : 1 ≤ n) (hT : T ⊆ Finset.range S) (t : ℝ) (hw : w ^ n = 1)
    (h0 : B0.Nodup) (hp : Bp.Nodup) (hH : MapsTo (ringHamiltonian n S t) B0 B0)
    (hC : ∀ s ∈ T, ∀ j < n, MapsTo (create (s * n + j)) B0 Bp) {GE : ℂ} {GS : Vec B0.length}
    (hGS : opMat B0 (ringHamiltonian n S t) *ᵥ GS = GE • GS) :
    opMat Bp (ringHamiltonian n S t) *ᵥ (opMat2 Bp B0 (modeC n T w) *ᵥ GS) =
      (GE + band t w) • (opMat2 Bp B0 (modeC n T w) *ᵥ GS) := by
  rw [opMat_eq_opMat2, Matrix.mulVec_mulVec, opMat2_mul hp (mapsTo_modeC hC), ring_modeC hn hT t hw, map_add,
    map_smul, Matrix.add_mulVec, Matrix.smul_mulVec, ← opMat2_mul h0 hH, ← Matrix.mulVec_mulVec]
  rw [opMat_eq_opMat2] at hGS
  rw [hGS, Matrix.mulVec_smul, add_smul]

/-- An annihilation mode lowers the energy by the band energy. -/
theorem modeA_energy (hn : 1 ≤ n) (hT : T ⊆ Finset.range S) (t : ℝ) (hw : w ^ n = 1)
    (h0 : B0.Nodup) (hp : Bh.Nodup) (hH : MapsTo (ringHamiltonian n S t) B0 B0)
    (hA : ∀ s ∈ T, ∀ j < n, MapsTo (annihilate (s * n + j)) B0 Bh) {GE : ℂ} {GS : Vec B0.length}
    (hGS : opMat B0 (ringHamiltonian n S t) *ᵥ GS = GE • GS) :
    opMat Bh (ringHamiltonian n S t) *ᵥ (opMat2 Bh B0 (modeA n T w) *ᵥ GS) =
      (GE - band t w) • (opMat2 Bh B0 (modeA n T w) *ᵥ GS) := by
  have h := congrArg (fun O => opMat2 Bh B0 O *ᵥ GS) (ring_modeA hn hT t hw)
  rw [← opMat2_mul h0 hH, ← Matrix.mulVec_mulVec, map_add, map_smul, Matrix.add_mulVec, Matrix.smul_mulVec] at h
  rw [opMat_eq_opMat2] at hGS
  rw [hGS, Matrix.mulVec_smul] at h
  rw [opMat_eq_opMat2, Matrix.mulVec_mulVec, opMat2_mul hp (mapsTo_modeA hA), sub_smul]
  exact eq_sub_of_add_eq h

/-- The two parts together have the weight of the anticommutator. -/
theorem mode_weight (h0 : B0.Nodup) (hp : Bp.Nodup) (hh : Bh.Nodup) (hw0 : w ≠ 0) (hw : star w = w⁻¹)
    (hC : ∀ s ∈ T, ∀ j < n, MapsTo (create (s * n + j)) B0 Bp)
    (hA : ∀ s ∈ T, ∀ j < n, MapsTo (annihilate (s * n + j)) B0 Bh) (GS : Vec B0.length) :
    vdot (opMat2 Bp B0 (modeC n T w) *ᵥ GS) (opMat2 Bp B0 (modeC n T w) *ᵥ GS) +
      vdot (opMat2 Bh B0 (modeA n T w) *ᵥ GS) (opMat2 Bh B0 (modeA n T w) *ᵥ GS) =
      ((T.card * n : ℕ) : ℂ) * vdot GS GS := by
  have hadj := isAdj_mode (n := n) (T := T) hw
  have e1 : vdot (opMat2 Bp B0 (modeC n T w) *ᵥ GS) (opMat2 Bp B0 (modeC n T w) *ᵥ GS) =
      vdot GS (opMat2 B0 B0 (modeA n T w * modeC n T w) *ᵥ GS) := by
    rw [← opMat2_mul hp (mapsTo_modeC hC), ← Matrix.mulVec_mulVec, ← opMat2_adj hadj, vdot_conjTranspose]
  have e2 : vdot (opMat2 Bh B0 (modeA n T w) *ᵥ GS) (opMat2 Bh B0 (modeA n T w) *ᵥ GS) =
      vdot GS (opMat2 B0 B0 (modeC n T w * modeA n T w) *ᵥ GS) := by
    rw [← opMat2_mul hh (mapsTo_modeA hA), ← Matrix.mulVec_mulVec, ← opMat2_adj hadj.symm, vdot_conjTranspose]
  rw [e1, e2, ← vdot_add_right, ← Matrix.add_mulVec, ← map_add, mode_anticomm hw0, map_smul, opMat2_one h0,
    Matrix.smul_mulVec, Matrix.one_mulVec, vdot_smul_right]

/-- The Green function of the momentum mode: a single pole. -/
theorem mode_green (hn : 1 ≤ n) (hT : T ⊆ Finset.range S) (t : ℝ) (hw : w ^ n = 1) (hsw : star w = w⁻¹)
    (h0 : B0.Nodup) (hp : Bp.Nodup) (hh : Bh.Nodup) (hH : MapsTo (ringHamiltonian n S t) B0 B0)
    (hC : ∀ s ∈ T, ∀ j < n, MapsTo (create (s * n + j)) B0 Bp)
    (hA : ∀ s ∈ T, ∀ j < n, MapsTo (annihilate (s * n + j)) B0 Bh) {GE : ℝ} {GS : Vec B0.length}
    (hGS : opMat B0 (ringHamiltonian n S t) *ᵥ GS = (GE : ℂ) • GS) (hnorm : vdot GS GS = 1) {z : ℂ}
    (hz : z ≠ band t w)
    (hu1 : IsUnit (shifted z GE (opMat Bp (ringHamiltonian n S t)) "-").det)
    (hu2 : IsUnit (shifted z GE (opMat Bh (ringHamiltonian n S t)) "+").det)
    {x : ℕ × ℕ → Vec Bp.length} {y : ℕ × ℕ → Vec Bh.length}
    (hx : ∀ p ∈ T ×ˢ Finset.range n, shifted z GE (opMat Bp (ringHamiltonian n S t)) "-" *ᵥ x p =
      opMat2 Bp B0 (create (p.1 * n + p.2)) *ᵥ GS)
    (hy : ∀ p ∈ T ×ˢ Finset.range n, shifted z GE (opMat Bh (ringHamiltonian n S t)) "+" *ᵥ y p =
      opMat2 Bh B0 (annihilate (p.1 * n + p.2)) *ᵥ GS) :
    ∑ p ∈ T ×ˢ Finset.range n, ∑ q ∈ T ×ˢ Finset.range n, w⁻¹ ^ p.2 * w ^ q.2 *
      (vdot (opMat2 Bp B0 (create (p.1 * n + p.2)) *ᵥ GS) (x q) +
        vdot (opMat2 Bh B0 (annihilate (q.1 * n + q.2)) *ᵥ GS) (y p)) =
      ((T.card * n : ℕ) : ℂ) / (z - band t w) := by
  have hw0 : w ≠ 0 := by
    rintro rfl
    rw [zero_pow (by omega)] at hw
    exact zero_ne_one hw
  have hz' : z - band t w ≠ 0 := sub_ne_zero.2 hz
  have hsw' : star w⁻¹ = w := by rw [star_inv₀, hsw, inv_inv]
  set P := T ×ˢ Finset.range n with hP
  set KC := opMat2 Bp B0 (modeC n T w) *ᵥ GS with hKC
  set KA := opMat2 Bh B0 (modeA n T w) *ᵥ GS with hKA
  have hKC' : KC = ∑ p ∈ P, w ^ p.2 • (opMat2 Bp B0 (create (p.1 * n + p.2)) *ᵥ GS) := by
    rw [hKC, opMat2_modeC, Matrix.sum_mulVec]
    exact Finset.sum_congr rfl fun p _ => Matrix.smul_mulVec _ _ _
  have hKA' : KA = ∑ p ∈ P, w⁻¹ ^ p.2 • (opMat2 Bh B0 (annihilate (p.1 * n + p.2)) *ᵥ GS) := by
    rw [hKA, opMat2_modeA, Matrix.sum_mulVec]
    exact Finset.sum_congr rfl fun p _ => Matrix.smul_mulVec _ _ _
  -- the two linear systems, for the modes
  have solve1 : ∑ q ∈ P, w ^ q.2 • x q = (z - band t w)⁻¹ • KC := by
    have h1 : shifted z GE (opMat Bp (ringHamiltonian n S t)) "-" *ᵥ (∑ q ∈ P, w ^ q.2 • x q) = KC := by
      rw [Matrix.mulVec_sum, hKC']
      exact Finset.sum_congr rfl fun q hq => by rw [Matrix.mulVec_smul, hx q hq]
    have h2 : shifted z GE (opMat Bp (ringHamiltonian n S t)) "-" *ᵥ ((z - band t w)⁻¹ • KC) = KC := by
      rw [Matrix.mulVec_smul, shifted_mulVec, if_neg (by decide), hKC,
        modeC_energy hn hT t hw h0 hp hH hC hGS, ← sub_smul, smul_smul]
      have : (z - band t w)⁻¹ * (z + GE - (GE + band t w)) = 1 := by
        rw [show z + (GE : ℂ) - (GE + band t w) = z - band t w by ring, inv_mul_cancel₀ hz']
      rw [this, one_smul]
    have e1 := solve_ok_iff.2 ⟨hu1, h1⟩
    rw [solve_ok_iff.2 ⟨hu1, h2⟩] at e1
    exact (Except.ok.inj e1).symm
  have solve2 : ∑ p ∈ P, w⁻¹ ^ p.2 • y p = (z - band t w)⁻¹ • KA := by
    have h1 : shifted z GE (opMat Bh (ringHamiltonian n S t)) "+" *ᵥ (∑ q ∈ P, w⁻¹ ^ q.2 • y q) = KA := by
      rw [Matrix.mulVec_sum, hKA']
      exact Finset.sum_congr rfl fun q hq => by rw [Matrix.mulVec_smul, hy q hq]
    have h2 : shifted z GE (opMat Bh (ringHamiltonian n S t)) "+" *ᵥ ((z - band t w)⁻¹ • KA) = KA := by
      rw [Matrix.mulVec_smul, shifted_mulVec, if_pos rfl, hKA,
        modeA_energy hn hT t hw h0 hh hH hA hGS, ← add_smul, smul_smul]
      have : (z - band t w)⁻¹ * (z - GE + (GE - band t w)) = 1 := by
        rw [show z - (GE : ℂ) + (GE - band t w) = z - band t w by ring, inv_mul_cancel₀ hz']
      rw [this, one_smul]
    have e1 := solve_ok_iff.2 ⟨hu2, h1⟩
    rw [solve_ok_iff.2 ⟨hu2, h2⟩] at e1
    exact (Except.ok.inj e1).symm
  have s1 : ∑ p ∈ P, ∑ q ∈ P, w⁻¹ ^ p.2 * w ^ q.2 * vdot (opMat2 Bp B0 (create (p.1 * n + p.2)) *ᵥ GS) (x q) =
      (z - band t w)⁻¹ * vdot KC KC := by
    rw [← vdot_smul_right, ← solve1]
    conv_rhs => rw [hKC']
    rw [vdot_sum_left]
    refine Finset.sum_congr rfl fun p _ => ?_
    rw [vdot_sum_right]
    refine Finset.sum_congr rfl fun q _ => ?_
    rw [vdot_smul_left, vdot_smul_right, star_pow, hsw]
    ring
  have s2 : ∑ p ∈ P, ∑ q ∈ P, w⁻¹ ^ p.2 * w ^ q.2 * vdot (opMat2 Bh B0 (annihilate (q.1 * n + q.2)) *ᵥ GS) (y p) =
      (z - band t w)⁻¹ * vdot KA KA := by
    rw [← vdot_smul_right, ← solve2, Finset.sum_comm]
    conv_rhs => rw [hKA']
    rw [vdot_sum_left]
    refine Finset.sum_congr rfl fun p _ => ?_
    rw [vdot_sum_right]
    refine Finset.sum_congr rfl fun q _ => ?_
    rw [vdot_smul_left, vdot_smul_right, star_pow, hsw']
    ring
  simp only [mul_add, Finset.sum_add_distrib]
  rw [s1, s2, ← mul_add, mode_weight h0 hp hh hw0 hsw hC hA GS, hnorm, mul_one, div_eq_mul_inv, mul_comm]

end

/-- The phases of the k-points. -/
theorem phase_facts {n : ℕ} (hn : 1 ≤ n) (i : ℕ) (t : ℝ) :
    let w := Complex.exp (Complex.I * ((2 * Real.pi * i / n : ℝ) : ℂ))
    w ^ n = 1 ∧ star w = w⁻¹ ∧ band t w = ((2 * t * Real.cos (2 * Real.pi * i / n) : ℝ) : ℂ) := by
  intro w
  have hn0 : (n : ℂ) ≠ 0 := by exact_mod_cast (by omega : n ≠ 0)
  have hinv : w⁻¹ = Complex.exp (-(((2 * Real.pi * i / n : ℝ) : ℂ)) * Complex.I) := by
    rw [← Complex.exp_neg]; congr 1; ring
  refine ⟨?_, ?_, ?_⟩
  · rw [← Complex.exp_nat_mul, Complex.exp_eq_one_iff]
    refine ⟨i, ?_⟩
    push_cast
    field_simp
  · rw [hinv]
    change (starRingEnd ℂ) w = _
    rw [← Complex.exp_conj, map_mul, Complex.conj_I, Complex.conj_ofReal]
    congr 1
    ring
  · unfold band
    rw [hinv, show w = Complex.exp (((2 * Real.pi * i / n : ℝ) : ℂ) * Complex.I) by
      rw [mul_comm]]
    have := Complex.two_cos ((2 * Real.pi * i / n : ℝ) : ℂ)
    rw [← this, ← Complex.ofReal_cos]
    push_cast
    ring

end Verif.Demo
