import Verif.Proofs.HubbardFree
import Verif.Proofs.DemoExact
import Mathlib.Algebra.Order.Chebyshev
/-!
# Lemmas for C92: norms
-/

namespace Verif.Demo

open Latt LDB Spec Matrix Lanczos GF Cpt
open scoped Matrix.Norms.L2Operator

section

variable {n : ℕ}

theorem norm_le_of_anticomm {N : ℕ} {A : Matrix (Fin N) (Fin N) ℂ} (h : Aᴴ * A + A * Aᴴ = 1) : ‖A‖ ≤ 1 := by
  refine opNorm_le zero_le_one fun x => ?_
  rw [one_mul]
  have h1 : star x ⬝ᵥ ((Aᴴ * A + A * Aᴴ) *ᵥ x) = star x ⬝ᵥ x := by rw [h, one_mulVec]
  rw [Matrix.add_mulVec, dotProduct_add, ← mulVec_mulVec, ← mulVec_mulVec, dot_adj Aᴴ x (A *ᵥ x), dot_adj A x (Aᴴ *ᵥ x),
    conjTranspose_conjTranspose, dot_self, dot_self, dot_self] at h1
  have h2 : nrm (A *ᵥ x) ^ 2 + nrm (Aᴴ *ᵥ x) ^ 2 = nrm x ^ 2 := by exact_mod_cast h1
  exact (sq_le_sq₀ (nrm_nonneg _) (nrm_nonneg _)).1 (by nlinarith [sq_nonneg (nrm (Aᴴ *ᵥ x))])

theorem norm_ladder {B : List ℕ} (hB : B.Nodup) {q : ℕ} (hC : MapsTo (create q) B B) (hA : MapsTo (annihilate q) B B) :
    ‖opMat B (create q)‖ ≤ 1 ∧ ‖opMat B (annihilate q)‖ ≤ 1 := by
  have h1 : (opMat B (annihilate q))ᴴ = opMat B (create q) := opMat2_adj (isAdj_create_annihilate q)
  have h2 : (opMat B (annihilate q))ᴴ * opMat B (annihilate q) + opMat B (annihilate q) * (opMat B (annihilate q))ᴴ = 1 := by
    rw [h1, opMat_eq_opMat2, opMat_eq_opMat2, opMat2_mul hB hA, opMat2_mul hB hC, ← map_add, add_comm, annihilate_create,
      if_pos rfl, opMat2_one hB]
  have h3 := norm_le_of_anticomm h2
  refine ⟨?_, h3⟩
  rw [← h1, l2_opNorm_conjTranspose]
  exact h3

/-- All bit patterns of the `2n` single-particle states. -/
def fullBasis (n : ℕ) : List ℕ := List.range (2 ^ (2 * n))

theorem nodup_full : (fullBasis n).Nodup := List.nodup_range

theorem mapsTo_full_create {q : ℕ} (hq : q < 2 * n) : MapsTo (create q) (fullBasis n) (fullBasis n) :=
  mapsTo_full hq .creation

theorem mapsTo_full_annihilate {q : ℕ} (hq : q < 2 * n) : MapsTo (annihilate q) (fullBasis n) (fullBasis n) :=
  mapsTo_full hq .annihilation

theorem norm_pair {a b : ℕ} (ha : a < 2 * n) (hb : b < 2 * n) : ‖opMat (fullBasis n) (create a * annihilate b)‖ ≤ 1 := by
  rw [opMat_eq_opMat2, ← opMat2_mul nodup_full (mapsTo_full_annihilate hb)]
  refine (norm_mul_le _ _).trans ?_
  have h1 := (norm_ladder nodup_full (mapsTo_full_create ha) (mapsTo_full_annihilate ha)).1
  have h2 := (norm_ladder nodup_full (mapsTo_full_create hb) (mapsTo_full_annihilate hb)).2
  calc _ ≤ (1 : ℝ) * 1 := mul_le_mul h1 h2 (norm_nonneg _) zero_le_one
    _ = 1 := one_mul 1

theorem MapsTo.mul {O P : Module.End ℂ Fock} {R B L : List ℕ} (hB : B.Nodup) (hO : MapsTo O B L) (hP : MapsTo P R B) :
    MapsTo (O * P) R L := by
  intro k hk U hU
  rw [Module.End.mul_apply, apply_eq_sum O (P (ket (occ k))) B hB (hP k hk)] at hU
  obtain ⟨b, -, hb⟩ := Finset.exists_ne_zero_of_sum_ne_zero hU
  exact hO _ (List.getElem_mem _) U (left_ne_zero_of_mul hb)

theorem mapsTo_pair {a b : ℕ} (ha : a < 2 * n) (hb : b < 2 * n) :
    MapsTo (create a * annihilate b) (fullBasis n) (fullBasis n) :=
  MapsTo.mul nodup_full (mapsTo_full_create ha) (mapsTo_full_annihilate hb)

theorem norm_hubbard (t U : ℝ) : ‖opMat (fullBasis n) (hubbardHamiltonian n t U)‖ ≤ (|U| + 4 * |t|) * n := by
  unfold hubbardHamiltonian
  rw [map_add, map_smul, map_smul, map_sum, map_sum]
  have h1 : ‖∑ i ∈ Finset.range n, opMat (fullBasis n) ((create (n + i) * annihilate (n + i)) * (create i * annihilate i))‖ ≤ n := by
    refine (norm_sum_le _ _).trans ?_
    refine (Finset.sum_le_sum (g := fun _ => (1 : ℝ)) fun i hi => ?_).trans (le_of_eq (by simp))
    rw [Finset.mem_range] at hi
    rw [opMat_eq_opMat2, ← opMat2_mul nodup_full (mapsTo_pair (by omega) (by omega))]
    refine (norm_mul_le _ _).trans ?_
    calc _ ≤ (1 : ℝ) * 1 := mul_le_mul (norm_pair (by omega) (by omega)) (norm_pair (by omega) (by omega)) (norm_nonneg _) zero_le_one
      _ = 1 := one_mul 1
  have h2 : ‖∑ i ∈ Finset.range (n - 1), opMat (fullBasis n) (hopPair n 2 i (i + 1))‖ ≤ 4 * n := by
    refine (norm_sum_le _ _).trans ?_
    refine (Finset.sum_le_sum (g := fun _ => (4 : ℝ)) fun i hi => ?_).trans ?_
    · rw [Finset.mem_range] at hi
      unfold hopPair
      rw [map_sum]
      refine (norm_sum_le _ _).trans ?_
      refine (Finset.sum_le_sum (g := fun _ => (2 : ℝ)) fun s hs => ?_).trans (le_of_eq (by norm_num))
      rw [Finset.mem_range] at hs
      rw [map_add]
      refine (norm_add_le _ _).trans ?_
      have a1 : s * n + i < 2 * n := site_lt hs (by omega)
      have a2 : s * n + (i + 1) < 2 * n := site_lt hs (by omega)
      linarith [norm_pair a1 a2, norm_pair a2 a1]
    · rw [Finset.sum_const, Finset.card_range, nsmul_eq_mul, mul_comm]
      have : ((n - 1 : ℕ) : ℝ) ≤ n := by exact_mod_cast Nat.sub_le n 1
      linarith
  refine (norm_add_le _ _).trans ?_
  rw [norm_smul, norm_smul, Complex.norm_real, Complex.norm_real, Real.norm_eq_abs, Real.norm_eq_abs]
  have := mul_le_mul_of_nonneg_left h1 (abs_nonneg U)
  have := mul_le_mul_of_nonneg_left h2 (abs_nonneg t)
  linarith

theorem stateOf_injective {B : List ℕ} (hB : B.Nodup) {v w : Vec B.length} (h : stateOf B v = stateOf B w) : v = w := by
  funext r
  rw [← stateOf_apply hB v r, h, stateOf_apply hB]

/-- The energy is bounded by the norm of the Hamiltonian. -/
theorem energy_le {H : Module.End ℂ Fock} {B0 Bf : List ℕ} (h0 : B0.Nodup) (hf : Bf.Nodup) (hsub : ∀ k ∈ B0, k ∈ Bf)
    (hH0 : MapsTo H B0 B0) (hHf : MapsTo H Bf Bf) {E : ℝ} {GS : Vec B0.length}
    (hGS : opMat B0 H *ᵥ GS = (E : ℂ) • GS) (hnorm : vdot GS GS = 1) : |E| ≤ ‖opMat Bf H‖ := by
  have hone : MapsTo 1 B0 Bf := by
    intro k hk T hT
    rw [Module.End.one_apply, ket, Finsupp.single_apply] at hT
    exact ⟨k, hsub k hk, by by_contra h; exact hT (if_neg fun h' => h h'.symm)⟩
  set v : Vec Bf.length := opMat2 Bf B0 1 *ᵥ GS with hv
  have e1 : stateOf B0 GS = stateOf Bf v := by
    have := apply_stateOf h0 hf hone GS
    rwa [Module.End.one_apply] at this
  have e2 : opMat Bf H *ᵥ v = (E : ℂ) • v := by
    refine stateOf_injective hf ?_
    rw [opMat_eq_opMat2, ← apply_stateOf hf hf hHf, ← e1, apply_stateOf h0 h0 hH0, ← opMat_eq_opMat2, hGS, stateOf_smul,
      stateOf_smul, e1]
  have e3 : nrm v ^ 2 = 1 := by
    have h1 : vdot v v = 1 := by
      rw [← fockInner_stateOf hf, ← e1, fockInner_stateOf h0, hnorm]
    have h2 : star v ⬝ᵥ v = vdot v v := rfl
    rw [h1, dot_self] at h2
    exact_mod_cast h2
  have e4 : nrm v = 1 := by
    have := nrm_nonneg v
    nlinarith
  have e5 := mulVec_le (opMat Bf H) v
  rw [e2, e4, mul_one] at e5
  refine le_trans (le_of_eq ?_) e5
  have : nrm ((E : ℂ) • v) = |E| * nrm v := by
    unfold nrm
    rw [WithLp.toLp_smul, norm_smul, Complex.norm_real, Real.norm_eq_abs]
  rw [this, e4, mul_one]

theorem mapsTo_full_hubbard (t U : ℝ) : MapsTo (hubbardHamiltonian n t U) (fullBasis n) (fullBasis n) := by
  unfold hubbardHamiltonian hopPair
  refine MapsTo.add (MapsTo.smul (MapsTo.sum fun i hi => ?_) _) (MapsTo.smul (MapsTo.sum fun i hi => MapsTo.sum fun s hs => ?_) _)
  · rw [Finset.mem_range] at hi
    exact MapsTo.mul nodup_full (mapsTo_pair (by omega) (by omega)) (mapsTo_pair (by omega) (by omega))
  · rw [Finset.mem_range] at hi hs
    have a1 : s * n + i < 2 * n := site_lt hs (by omega)
    have a2 : s * n + (i + 1) < 2 * n := site_lt hs (by omega)
    exact MapsTo.add (mapsTo_pair a1 a2) (mapsTo_pair a2 a1)

/-- One direction of the hopping between the clusters. -/
noncomputable def oneWay (n : ℕ) (a : ℂ) : Matrix (Fin 2 × Fin n) (Fin 2 × Fin n) ℂ := .of fun p q =>
  if p.1 = q.1 ∧ (p.2 : ℕ) + 1 = n ∧ (q.2 : ℕ) = 0 then a else 0

theorem interCluster_eq (t k : ℝ) : interCluster n t k =
    oneWay n ((t : ℂ) * Complex.exp (Complex.I * (k * n))) +
      (oneWay n ((t : ℂ) * Complex.exp (Complex.I * (k * n))))ᴴ := by
  ext p q
  rw [Matrix.add_apply, conjTranspose_apply]
  unfold interCluster oneWay
  rw [of_apply, of_apply, of_apply]
  have hc : star ((t : ℂ) * Complex.exp (Complex.I * (k * n))) = (t : ℂ) * Complex.exp (-(Complex.I * (k * n))) := by
    rw [Complex.star_def, map_mul, ← Complex.exp_conj]
    simp
  by_cases h : p.1 = q.1
  · rw [if_pos h]
    congr 1
    · simp only [h, true_and]
    · simp only [h, true_and]
      by_cases h2 : (p.2 : ℕ) = 0 ∧ (q.2 : ℕ) + 1 = n
      · rw [if_pos h2, if_pos ⟨h2.2, h2.1⟩, hc]
      · rw [if_neg h2, if_neg fun h3 => h2 ⟨h3.2, h3.1⟩, star_zero]
  · rw [if_neg h, if_neg fun h3 => h h3.1, if_neg fun h3 => h h3.1.symm, star_zero, add_zero]

theorem interCluster_hermitian (t k : ℝ) : (interCluster n t k).IsHermitian := by
  rw [interCluster_eq]
  unfold IsHermitian
  rw [conjTranspose_add, conjTranspose_conjTranspose, add_comm]

theorem oneWay_norm (a : ℂ) : ‖oneWay n a‖ ≤ ‖a‖ := by
  refine opNorm_le (norm_nonneg _) fun x => ?_
  refine (sq_le_sq₀ (nrm_nonneg _) (mul_nonneg (norm_nonneg _) (nrm_nonneg _))).1 ?_
  rw [mul_pow, nrm_sq, nrm_sq, Fintype.sum_prod_type, Fintype.sum_prod_type, Finset.mul_sum]
  refine Finset.sum_le_sum fun s _ => ?_
  obtain _ | m := n
  · simp
  · have e : ∀ i : Fin (m + 1), (oneWay (m + 1) a *ᵥ x) (s, i) = if i = Fin.last m then a * x (s, 0) else 0 := by
      intro i
      change ∑ q : Fin 2 × Fin _, oneWay (m + 1) a (s, i) q * x q = _
      rw [Finset.sum_eq_single (s, 0)]
      · unfold oneWay
        rw [of_apply]
        have : (i : ℕ) + 1 = m + 1 ↔ i = Fin.last m := by rw [Fin.ext_iff, Fin.val_last]; omega
        simp only [this, Fin.val_zero, and_true, true_and]
        split
        · rfl
        · rw [zero_mul]
      · rintro ⟨s', j⟩ - hne
        unfold oneWay
        rw [of_apply, if_neg, zero_mul]
        rintro ⟨h1, -, h2⟩
        refine hne (Prod.ext h1.symm (Fin.ext ?_))
        exact h2
      · intro h
        exact absurd (Finset.mem_univ _) h
    have e2 : ∑ i : Fin (m + 1), ‖(oneWay (m + 1) a *ᵥ x) (s, i)‖ ^ 2 = ‖a‖ ^ 2 * ‖x (s, 0)‖ ^ 2 := by
      rw [Finset.sum_eq_single (Fin.last m)]
      · rw [e, if_pos rfl, norm_mul, mul_pow]
      · intro i _ hi
        rw [e, if_neg hi, norm_zero, zero_pow two_ne_zero]
      · intro h
        exact absurd (Finset.mem_univ _) h
    rw [e2]
    refine mul_le_mul_of_nonneg_left ?_ (sq_nonneg _)
    exact Finset.single_le_sum (f := fun i => ‖x (s, i)‖ ^ 2) (fun i _ => sq_nonneg _) (Finset.mem_univ 0)

theorem interCluster_norm (t k : ℝ) : ‖interCluster n t k‖ ≤ 2 * |t| := by
  rw [interCluster_eq]
  refine (norm_add_le _ _).trans ?_
  rw [l2_opNorm_conjTranspose]
  have := oneWay_norm (n := n) ((t : ℂ) * Complex.exp (Complex.I * (k * n)))
  rw [norm_mul, Complex.norm_real, Real.norm_eq_abs, show Complex.I * ((k : ℂ) * (n : ℂ)) = ((k * n : ℝ) : ℂ) * Complex.I by
    push_cast; ring, Complex.norm_exp_ofReal_mul_I, mul_one] at this
  rw [show Complex.I * ((k : ℂ) * (n : ℂ)) = ((k * n : ℝ) : ℂ) * Complex.I by push_cast; ring]
  linarith

/-- A matrix with small entries, and none between different spins. -/
theorem block_entries_norm {D : Matrix (Fin 2 × Fin n) (Fin 2 × Fin n) ℂ} {δ : ℝ} (hδ : 0 ≤ δ)
    (h1 : ∀ p q, p.1 ≠ q.1 → D p q = 0) (h2 : ∀ p q, p.1 = q.1 → ‖D p q‖ ≤ δ) : ‖D‖ ≤ n * δ := by
  refine opNorm_le (by positivity) fun x => ?_
  refine (sq_le_sq₀ (nrm_nonneg _) (mul_nonneg (by positivity) (nrm_nonneg _))).1 ?_
  rw [mul_pow, nrm_sq, nrm_sq, Fintype.sum_prod_type, Fintype.sum_prod_type, Finset.mul_sum]
  refine Finset.sum_le_sum fun s _ => ?_
  have e : ∀ i : Fin n, ‖(D *ᵥ x) (s, i)‖ ^ 2 ≤ n * δ ^ 2 * ∑ j, ‖x (s, j)‖ ^ 2 := by
    intro i
    have a1 : (D *ᵥ x) (s, i) = ∑ j, D (s, i) (s, j) * x (s, j) := by
      change ∑ q : Fin 2 × Fin _, D (s, i) q * x q = _
      rw [Fintype.sum_prod_type, Finset.sum_eq_single s]
      · intro s' _ hs
        refine Finset.sum_eq_zero fun j _ => ?_
        rw [h1 (s, i) (s', j) hs.symm, zero_mul]
      · intro h
        exact absurd (Finset.mem_univ _) h
    have a2 : ‖(D *ᵥ x) (s, i)‖ ≤ δ * ∑ j, ‖x (s, j)‖ := by
      rw [a1, Finset.mul_sum]
      refine (norm_sum_le _ _).trans (Finset.sum_le_sum fun j _ => ?_)
      rw [norm_mul]
      exact mul_le_mul_of_nonneg_right (h2 _ _ rfl) (norm_nonneg _)
    have a3 : (∑ j, ‖x (s, j)‖) ^ 2 ≤ n * ∑ j, ‖x (s, j)‖ ^ 2 := by
      have := sq_sum_le_card_mul_sum_sq (s := Finset.univ) (f := fun j : Fin n => ‖x (s, j)‖)
      rwa [Finset.card_univ, Fintype.card_fin] at this
    calc ‖(D *ᵥ x) (s, i)‖ ^ 2 ≤ (δ * ∑ j, ‖x (s, j)‖) ^ 2 := pow_le_pow_left₀ (norm_nonneg _) a2 2
      _ = δ ^ 2 * (∑ j, ‖x (s, j)‖) ^ 2 := mul_pow _ _ _
      _ ≤ δ ^ 2 * (n * ∑ j, ‖x (s, j)‖ ^ 2) := mul_le_mul_of_nonneg_left a3 (sq_nonneg _)
      _ = _ := by ring
  refine (Finset.sum_le_sum fun i _ => e i).trans (le_of_eq ?_)
  rw [Finset.sum_const, Finset.card_univ, Fintype.card_fin, nsmul_eq_mul]
  ring

/-- The plane wave of spin `s`. -/
noncomputable def plane (n : ℕ) (k : ℝ) (s : Fin 2) : Fin 2 × Fin n → ℂ := fun p =>
  if p.1 = s then Complex.exp (Complex.I * (k * (p.2 : ℕ))) else 0

theorem norm_phase (k x : ℝ) : ‖Complex.exp (Complex.I * (k * x))‖ = 1 := by
  rw [show Complex.I * ((k : ℂ) * (x : ℂ)) = ((k * x : ℝ) : ℂ) * Complex.I by push_cast; ring, Complex.norm_exp_ofReal_mul_I]

theorem plane_nrm (k : ℝ) (s : Fin 2) : nrm (plane n k s) ^ 2 = n := by
  rw [nrm_sq, Fintype.sum_prod_type, Finset.sum_eq_single s]
  · have : ∀ i : Fin n, ‖plane n k s (s, i)‖ ^ 2 = 1 := by
      intro i
      unfold plane
      rw [if_pos rfl]
      have := norm_phase k (i : ℕ)
      rw [Complex.ofReal_natCast] at this
      rw [this, one_pow]
    rw [Finset.sum_congr rfl fun i _ => this i]
    simp
  · intro s' _ hs
    refine Finset.sum_eq_zero fun i _ => ?_
    unfold plane
    rw [if_neg hs, norm_zero, zero_pow two_ne_zero]
  · intro h
    exact absurd (Finset.mem_univ _) h

theorem plane_form (k : ℝ) (s : Fin 2) (P : Matrix (Fin 2 × Fin n) (Fin 2 × Fin n) ℂ) :
    star (plane n k s) ⬝ᵥ (P *ᵥ plane n k s) = ∑ i : Fin n, ∑ j : Fin n, P (s, i) (s, j) *
      Complex.exp (Complex.I * (k * ((j : ℕ) - (i : ℕ) : ℝ))) := by
  have e : ∀ p, (P *ᵥ plane n k s) p = ∑ j, P p (s, j) * Complex.exp (Complex.I * (k * (j : ℕ))) := by
    intro p
    change ∑ q : Fin 2 × Fin _, _ = _
    rw [Fintype.sum_prod_type, Finset.sum_eq_single s]
    · refine Finset.sum_congr rfl fun j _ => ?_
      unfold plane
      rw [if_pos rfl]
    · intro s' _ hs
      refine Finset.sum_eq_zero fun j _ => ?_
      unfold plane
      rw [if_neg hs, mul_zero]
    · intro h
      exact absurd (Finset.mem_univ _) h
  change ∑ q : Fin 2 × Fin _, _ = _
  rw [Fintype.sum_prod_type, Finset.sum_eq_single s]
  · refine Finset.sum_congr rfl fun i _ => ?_
    rw [e, Finset.mul_sum]
    refine Finset.sum_congr rfl fun j _ => ?_
    have e2 : star (plane n k s) (s, i) = Complex.exp (-(Complex.I * (k * (i : ℕ)))) := by
      rw [Pi.star_apply]
      unfold plane
      rw [if_pos rfl, Complex.star_def, ← Complex.exp_conj]
      simp
    rw [e2, mul_left_comm, ← Complex.exp_add]
    congr 2
    push_cast
    ring
  · intro s' _ hs
    refine Finset.sum_eq_zero fun i _ => ?_
    rw [Pi.star_apply]
    unfold plane
    rw [if_neg hs, star_zero, zero_mul]
  · intro h
    exact absurd (Finset.mem_univ _) h

theorem cptGreen_eq (t k : ℝ) (G : Matrix (Fin 2 × Fin n) (Fin 2 × Fin n) ℂ) :
    cptGreen n t k G = (∑ s : Fin 2, star (plane n k s) ⬝ᵥ ((G⁻¹ - interCluster n t k)⁻¹ *ᵥ plane n k s)) / n := by
  unfold cptGreen
  congr 1
  exact Finset.sum_congr rfl fun s _ => (plane_form k s _).symm

theorem plane_le (hn : 1 ≤ n) (k : ℝ) (P : Matrix (Fin 2 × Fin n) (Fin 2 × Fin n) ℂ) :
    ‖(∑ s : Fin 2, star (plane n k s) ⬝ᵥ (P *ᵥ plane n k s)) / (n : ℂ)‖ ≤ 2 * ‖P‖ := by
  have hn' : (0 : ℝ) < n := by exact_mod_cast hn
  rw [norm_div, Complex.norm_natCast, div_le_iff₀ hn']
  refine (norm_sum_le _ _).trans ?_
  refine (Finset.sum_le_sum (g := fun _ => ‖P‖ * n) fun s _ => ?_).trans (le_of_eq (by simp; ring))
  refine (dot_le _ _).trans ?_
  refine (mul_le_mul_of_nonneg_left (mulVec_le P _) (nrm_nonneg _)).trans (le_of_eq ?_)
  rw [← plane_nrm k s]
  ring

theorem cptGreen_sub_le (hn : 1 ≤ n) (t k : ℝ) (G G' : Matrix (Fin 2 × Fin n) (Fin 2 × Fin n) ℂ) :
    ‖cptGreen n t k G - cptGreen n t k G'‖ ≤
      2 * ‖(G⁻¹ - interCluster n t k)⁻¹ - (G'⁻¹ - interCluster n t k)⁻¹‖ := by
  refine le_trans (le_of_eq ?_) (plane_le hn k _)
  rw [cptGreen_eq, cptGreen_eq, ← sub_div, ← Finset.sum_sub_distrib]
  congr 2
  refine Finset.sum_congr rfl fun s _ => ?_
  rw [Matrix.sub_mulVec, dotProduct_sub]

/-- The spectral function of cluster perturbation theory is positive and bounded. -/
theorem cptGreen_spectral (hn : 1 ≤ n) (t k : ℝ) {G : Matrix (Fin 2 × Fin n) (Fin 2 × Fin n) ℂ} {eta : ℝ} (he : 0 < eta)
    (hG : Dissipative G eta) (hu : IsUnit G) : 0 < -(cptGreen n t k G).im ∧ ‖cptGreen n t k G‖ ≤ 2 / eta := by
  have hV := interCluster_hermitian (n := n) t k
  have hP := hG.cpt he hu hV
  have hPu := hG.isUnit he hu hV
  have hdet := (isUnit_iff_isUnit_det _).1 hPu
  set P := (G⁻¹ - interCluster n t k)⁻¹ with hPdef
  have hn' : (0 : ℝ) < n := by exact_mod_cast hn
  constructor
  · rw [cptGreen_eq, ← hPdef, Complex.div_natCast_im, Complex.im_sum, ← neg_div, ← Finset.sum_neg_distrib]
    refine div_pos (Finset.sum_pos (fun s _ => ?_) ⟨0, Finset.mem_univ _⟩) hn'
    refine lt_of_lt_of_le ?_ (hP (plane n k s))
    have hne : nrm (P *ᵥ plane n k s) ≠ 0 := by
      intro h0
      have h1 := nrm_eq_zero h0
      have h2 : (G⁻¹ - interCluster n t k) *ᵥ (P *ᵥ plane n k s) = plane n k s := by
        rw [mulVec_mulVec, hPdef, mul_nonsing_inv _ hdet, one_mulVec]
      rw [h1, mulVec_zero] at h2
      have h3 := plane_nrm (n := n) k s
      rw [← h2, nrm_sq] at h3
      simp at h3
      linarith
    have : 0 < nrm (P *ᵥ plane n k s) := lt_of_le_of_ne (nrm_nonneg _) hne.symm
    positivity
  · rw [cptGreen_eq]
    refine (plane_le hn k _).trans ?_
    have := hP.norm_le he
    calc _ ≤ 2 * (1 / eta) := mul_le_mul_of_nonneg_left this zero_le_two
      _ = _ := by ring

end

end Verif.Demo
