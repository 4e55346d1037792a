import Verif.Proofs.HubbardFamily
/-!
# Lemmas for C118: the lowest energy of the Hubbard model
-/

namespace Verif.LDB

open Verif.Latt Verif.Spec Demo Matrix Lanczos
open scoped ComplexOrder

variable {n m Nup Ndown : ℕ} {B : List ℕ} {d : ℝ} {points : Fin n → Pt m}

/-- the quadratic form of a matrix -/
noncomputable def form {N : ℕ} (M : Matrix (Fin N) (Fin N) ℂ) (v : Fin N → ℂ) : ℝ := (star v ⬝ᵥ M *ᵥ v).re

/-- the square of the norm -/
def norm2 {N : ℕ} (v : Fin N → ℂ) : ℝ := ∑ r, Complex.normSq (v r)

theorem star_dot {N : ℕ} (v : Fin N → ℂ) : star v ⬝ᵥ v = (norm2 v : ℂ) := by
  unfold norm2 dotProduct
  rw [Complex.ofReal_sum]
  refine Finset.sum_congr rfl fun r _ => ?_
  rw [Pi.star_apply, mul_comm]
  exact Complex.mul_conj (v r)

theorem norm2_pos {N : ℕ} {v : Fin N → ℂ} (hv : v ≠ 0) : 0 < norm2 v := by
  obtain ⟨r, hr⟩ := Function.ne_iff.1 hv
  exact Finset.sum_pos' (fun r _ => Complex.normSq_nonneg _) ⟨r, Finset.mem_univ _, Complex.normSq_pos.2 hr⟩

theorem form_eigen {N : ℕ} {M : Matrix (Fin N) (Fin N) ℂ} {v : Fin N → ℂ} {E : ℝ} (h : M *ᵥ v = (E : ℂ) • v) :
    form M v = E * norm2 v := by
  unfold form
  rw [h, dotProduct_smul, star_dot, smul_eq_mul, ← Complex.ofReal_mul, Complex.ofReal_re]

theorem form_add {N : ℕ} (M M' : Matrix (Fin N) (Fin N) ℂ) (v : Fin N → ℂ) : form (M + M') v = form M v + form M' v := by
  unfold form
  rw [Matrix.add_mulVec, dotProduct_add, Complex.add_re]

theorem form_smul {N : ℕ} (x : ℝ) (M : Matrix (Fin N) (Fin N) ℂ) (v : Fin N → ℂ) : form ((x : ℂ) • M) v = x * form M v := by
  unfold form
  rw [Matrix.smul_mulVec, dotProduct_smul, smul_eq_mul, Complex.re_ofReal_mul]

/-- The lowest eigenvalue bounds the quadratic form. -/
theorem exists_lowest {N : ℕ} (hN : 0 < N) {M : Matrix (Fin N) (Fin N) ℂ} (hM : M.IsHermitian) :
    ∃ E : ℝ, IsLowest M E ∧ ∀ v, E * norm2 v ≤ form M v := by
  haveI : Nonempty (Fin N) := ⟨⟨0, hN⟩⟩
  obtain ⟨i, hi⟩ := Finite.exists_min hM.eigenvalues
  have hform : ∀ v, hM.eigenvalues i * norm2 v ≤ form M v := by
    intro v
    have hp : (M - ((hM.eigenvalues i : ℝ) : ℂ) • 1).PosSemidef := by
      set V := (hM.eigenvectorUnitary : Matrix (Fin N) (Fin N) ℂ) with hV
      have h2 : V * Vᴴ = 1 := Unitary.coe_mul_star_self hM.eigenvectorUnitary
      have h3 : M * V = V * Matrix.diagonal fun k => (hM.eigenvalues k : ℂ) := by
        ext a k
        rw [Matrix.mul_diagonal, Matrix.mul_apply]
        have := congrFun (hM.mulVec_eigenvectorBasis k) a
        rw [Pi.smul_apply] at this
        simp only [hV, Matrix.IsHermitian.eigenvectorUnitary_apply]
        rw [mul_comm]
        exact this
      have e : M - ((hM.eigenvalues i : ℝ) : ℂ) • 1 = V * (Matrix.diagonal fun k =>
          ((hM.eigenvalues k - hM.eigenvalues i : ℝ) : ℂ)) * Vᴴ := by
        have e1 : (Matrix.diagonal fun k => ((hM.eigenvalues k - hM.eigenvalues i : ℝ) : ℂ)) =
            (Matrix.diagonal fun k => (hM.eigenvalues k : ℂ)) - ((hM.eigenvalues i : ℝ) : ℂ) • 1 := by
          rw [← Matrix.diagonal_one, ← Matrix.diagonal_smul, Matrix.diagonal_sub]
          congr 1
          funext k
          simp
        rw [e1, mul_sub, sub_mul, ← h3, mul_assoc, h2, mul_one, mul_smul_comm, mul_one, smul_mul_assoc, h2]
      rw [e]
      refine Matrix.PosSemidef.mul_mul_conjTranspose_same (Matrix.PosSemidef.diagonal ?_) V
      intro k
      have := hi k
      change (0 : ℂ) ≤ _
      rw [Complex.zero_le_real]
      linarith
    have h1 := (Complex.nonneg_iff.1 (hp.dotProduct_mulVec_nonneg v)).1
    rw [Matrix.sub_mulVec, Matrix.smul_mulVec, Matrix.one_mulVec, dotProduct_sub, dotProduct_smul, star_dot, smul_eq_mul,
      ← Complex.ofReal_mul, Complex.sub_re, Complex.ofReal_re] at h1
    unfold form
    linarith
  refine ⟨hM.eigenvalues i, ⟨⟨(hM.eigenvectorBasis i).ofLp, ?_, ?_⟩, fun z v hv he => ?_⟩, hform⟩
  · intro h
    have := hM.eigenvectorBasis.orthonormal.ne_zero i
    exact this (by ext r; exact congrFun h r)
  · have := hM.mulVec_eigenvectorBasis i
    rw [this]
    rfl
  · have h1 : star v ⬝ᵥ M *ᵥ v = z * norm2 v := by rw [he, dotProduct_smul, star_dot, smul_eq_mul]
    have hpos := norm2_pos hv
    have h2 : star (star v ⬝ᵥ M *ᵥ v) = star v ⬝ᵥ M *ᵥ v := by
      rw [← Matrix.star_dotProduct_star, star_star, Matrix.star_mulVec, hM.eq, ← Matrix.dotProduct_mulVec]
    have h3 : z.im = 0 := by
      rw [h1] at h2
      have := congrArg Complex.im h2
      rw [star_mul', Complex.star_def, Complex.conj_ofReal, Complex.im_mul_ofReal,
        Complex.im_mul_ofReal, Complex.conj_im] at this
      nlinarith
    refine ⟨h3, ?_⟩
    have h4 := hform v
    unfold form at h4
    rw [h1, Complex.re_mul_ofReal] at h4
    exact le_of_mul_le_mul_right h4 hpos

/-! ### Doubly occupied points -/

theorem card_up {S : Finset ℕ} (hS : S ⊆ Finset.range (2 * n)) :
    (Finset.univ.filter fun i : Fin n => n + (i : ℕ) ∈ S).card = (S.filter (n ≤ ·)).card := by
  refine Finset.card_bij (fun i _ => n + (i : ℕ)) ?_ ?_ ?_
  · intro i hi
    exact Finset.mem_filter.2 ⟨(Finset.mem_filter.1 hi).2, by omega⟩
  · intro i _ j _ h
    exact Fin.ext (by omega)
  · intro x hx
    obtain ⟨h1, h2⟩ := Finset.mem_filter.1 hx
    have := Finset.mem_range.1 (hS h1)
    refine ⟨⟨x - n, by omega⟩, Finset.mem_filter.2 ⟨Finset.mem_univ _, ?_⟩, ?_⟩ <;> dsimp only
    · rwa [Nat.add_sub_cancel' h2]
    · omega

theorem card_down (S : Finset ℕ) :
    (Finset.univ.filter fun i : Fin n => (i : ℕ) ∈ S).card = (S.filter (· < n)).card := by
  refine Finset.card_bij (fun i _ => (i : ℕ)) ?_ ?_ ?_
  · intro i hi
    exact Finset.mem_filter.2 ⟨(Finset.mem_filter.1 hi).2, i.2⟩
  · intro i _ j _ h
    exact Fin.ext h
  · intro x hx
    obtain ⟨h1, h2⟩ := Finset.mem_filter.1 hx
    exact ⟨⟨x, h2⟩, Finset.mem_filter.2 ⟨Finset.mem_univ _, h1⟩, rfl⟩

theorem card_both (hB : SpinSector n Nup Ndown B) {k : ℕ} (hk : k ∈ B) :
    Nup + Ndown - n ≤ (Finset.univ.filter fun i : Fin n => (i : ℕ) ∈ occ k ∧ n + (i : ℕ) ∈ occ k).card ∧
      (Finset.univ.filter fun i : Fin n => (i : ℕ) ∈ occ k ∧ n + (i : ℕ) ∈ occ k).card ≤ min Nup Ndown := by
  obtain ⟨h1, h2, h3⟩ := (hB.2 k).1 hk
  rw [← card_up h1] at h2
  rw [← card_down] at h3
  rw [Finset.filter_and]
  have e := Finset.card_inter_add_card_union (Finset.univ.filter fun i : Fin n => (i : ℕ) ∈ occ k)
    (Finset.univ.filter fun i : Fin n => n + (i : ℕ) ∈ occ k)
  have hu := Finset.card_le_univ ((Finset.univ.filter fun i : Fin n => (i : ℕ) ∈ occ k) ∪
    (Finset.univ.filter fun i : Fin n => n + (i : ℕ) ∈ occ k))
  rw [Fintype.card_fin] at hu
  have i1 := Finset.card_le_card (Finset.inter_subset_left (s₁ := Finset.univ.filter fun i : Fin n => (i : ℕ) ∈ occ k)
    (s₂ := Finset.univ.filter fun i : Fin n => n + (i : ℕ) ∈ occ k))
  have i2 := Finset.card_le_card (Finset.inter_subset_right (s₁ := Finset.univ.filter fun i : Fin n => (i : ℕ) ∈ occ k)
    (s₂ := Finset.univ.filter fun i : Fin n => n + (i : ℕ) ∈ occ k))
  omega

theorem form_pairs (hB : SpinSector n Nup Ndown B) (v : Fin B.length → ℂ) :
    ((Nup + Ndown - n : ℕ) : ℝ) * norm2 v ≤ form (opMat B (clusterHubbard d points 0 1)) v ∧
      form (opMat B (clusterHubbard d points 0 1)) v ≤ ((min Nup Ndown : ℕ) : ℝ) * norm2 v := by
  have e : form (opMat B (clusterHubbard d points 0 1)) v = ∑ r : Fin B.length, ((Finset.univ.filter fun i : Fin n =>
      (i : ℕ) ∈ occ B[r] ∧ n + (i : ℕ) ∈ occ B[r]).card : ℝ) * Complex.normSq (v r) := by
    unfold form dotProduct
    rw [Complex.re_sum]
    refine Finset.sum_congr rfl fun r _ => ?_
    have h1 : (opMat B (clusterHubbard d points 0 1) *ᵥ v) r = ((Finset.univ.filter fun i : Fin n =>
      (i : ℕ) ∈ occ B[r] ∧ n + (i : ℕ) ∈ occ B[r]).card : ℂ) * v r := by
      unfold Matrix.mulVec dotProduct
      rw [Finset.sum_eq_single r]
      · have := atomic_limit (d := d) (points := points) hB.nodup 1 r r
        rw [if_pos rfl, Complex.ofReal_one, one_mul] at this
        rw [← this]
        rfl
      · intro c _ hc
        have := atomic_limit (d := d) (points := points) hB.nodup 1 r c
        rw [if_neg hc.symm] at this
        have h' : opMat B (clusterHubbard d points 0 1) r c = 0 := this
        exact (congrArg (· * v c) h').trans (zero_mul _)
      · intro h; exact absurd (Finset.mem_univ r) h
    rw [h1, Pi.star_apply, mul_left_comm, mul_comm (star (v r)), show v r * star (v r) =
      ((Complex.normSq (v r) : ℝ) : ℂ) from Complex.mul_conj (v r), ← Complex.ofReal_natCast, ← Complex.ofReal_mul,
      Complex.ofReal_re]
  rw [e, norm2, Finset.mul_sum, Finset.mul_sum]
  constructor
  · refine Finset.sum_le_sum fun r _ => mul_le_mul_of_nonneg_right ?_ (Complex.normSq_nonneg _)
    exact_mod_cast (card_both hB (List.getElem_mem r.2)).1
  · refine Finset.sum_le_sum fun r _ => mul_le_mul_of_nonneg_right ?_ (Complex.normSq_nonneg _)
    exact_mod_cast (card_both hB (List.getElem_mem r.2)).2

/-! ### The lowest energy -/

theorem clusterHubbard_split (d : ℝ) (points : Fin n → Pt m) (t U : ℝ) : clusterHubbard d points t U =
    (t : ℂ) • clusterHubbard d points 1 0 + (U : ℂ) • clusterHubbard d points 0 1 := by
  unfold clusterHubbard
  simp only [Complex.ofReal_zero, Complex.ofReal_one, zero_smul, one_smul, zero_add, add_zero]
  exact add_comm _ _

theorem form_split (t U : ℝ) (v : Fin B.length → ℂ) : form (opMat B (clusterHubbard d points t U)) v =
    t * form (opMat B (clusterHubbard d points 1 0)) v + U * form (opMat B (clusterHubbard d points 0 1)) v := by
  rw [clusterHubbard_split, map_add, map_smul, map_smul, form_add, form_smul, form_smul]

theorem sector_pos (hB : SpinSector n Nup Ndown B) (ha : Nup ≤ n) (hb : Ndown ≤ n) : 0 < B.length := by
  rw [length_sector hB, Finset.card_product, choices, choices, Finset.card_powersetCard, Finset.card_powersetCard,
    Finset.card_univ, Fintype.card_fin]
  exact Nat.mul_pos (Nat.choose_pos ha) (Nat.choose_pos hb)

theorem lowest_energy (hB : SpinSector n Nup Ndown B) (ha : Nup ≤ n) (hb : Ndown ≤ n)
    (hH : ∀ t U, (opMat B (clusterHubbard d points t U)).IsHermitian) : ∃ E : ℝ → ℝ → ℝ,
    (∀ t U, IsLowest (opMat B (clusterHubbard d points t U)) (E t U)) ∧
    (∀ t U x, 0 ≤ x → E t U + x * ((Nup + Ndown - n : ℕ) : ℝ) ≤ E t (U + x) ∧
      E t (U + x) ≤ E t U + x * ((min Nup Ndown : ℕ) : ℝ)) ∧
    ∀ t U t' U' a : ℝ, 0 ≤ a → a ≤ 1 →
      a * E t U + (1 - a) * E t' U' ≤ E (a * t + (1 - a) * t') (a * U + (1 - a) * U') := by
  choose E hE hv using fun t U => exists_lowest (sector_pos hB ha hb) (hH t U)
  refine ⟨E, hE, fun t U x hx => ⟨?_, ?_⟩, fun t U t' U' a h0 h1 => ?_⟩
  · obtain ⟨v, hv0, he⟩ := (hE t (U + x)).1
    have h1 := form_eigen he
    have h2 := hv t U v
    rw [form_split] at h1 h2
    have h3 := mul_le_mul_of_nonneg_left (form_pairs (d := d) (points := points) hB v).1 hx
    refine le_of_mul_le_mul_right ?_ (norm2_pos hv0)
    linarith
  · obtain ⟨v, hv0, he⟩ := (hE t U).1
    have h1 := form_eigen he
    have h2 := hv t (U + x) v
    rw [form_split] at h1 h2
    have h3 := mul_le_mul_of_nonneg_left (form_pairs (d := d) (points := points) hB v).2 hx
    refine le_of_mul_le_mul_right ?_ (norm2_pos hv0)
    linarith
  · obtain ⟨v, hv0, he⟩ := (hE (a * t + (1 - a) * t') (a * U + (1 - a) * U')).1
    have e1 := form_eigen he
    have e2 := mul_le_mul_of_nonneg_left (hv t U v) h0
    have e3 := mul_le_mul_of_nonneg_left (hv t' U' v) (sub_nonneg.2 h1)
    rw [form_split] at e1 e2 e3
    refine le_of_mul_le_mul_right ?_ (norm2_pos hv0)
    linarith

section
variable {count : ℕ} {L : Lat count m m} {zoom : ℤ} {coordOf : ℝ → Coord} {run : ℝ → ℝ → ℕ → ℕ → Option (Py Setup)}

theorem hubbardLimits (h : HubbardModel d L zoom coordOf run) : HubbardLimits d L.points run := by
  refine ⟨fun t a b ha hb => ?_, fun a b ha hb => ?_⟩
  · obtain ⟨V, hV, -, hs, hm, -⟩ := h t 0 a b ha hb
    refine ⟨V, hV, clusterHopping_hermitian d L.points t, ?_⟩
    rw [setup_matrix hm]
    exact free_charpoly hs t _
  · obtain ⟨V0, -, -, hB, -, -⟩ := h 0 0 a b ha hb
    have hH : ∀ t U, (opMat V0.basis (clusterHubbard d L.points t U)).IsHermitian := by
      intro t U
      obtain ⟨V, -, -, hs, hm, hh⟩ := h t U a b ha hb
      rw [setup_matrix hm, hs.unique hB] at hh
      exact hh
    obtain ⟨E, h1, h2, h3⟩ := lowest_energy hB ha hb hH
    refine ⟨E, fun t U => ?_, h2, h3⟩
    obtain ⟨V, hV, -, hs, hm, -⟩ := h t U a b ha hb
    refine ⟨V, hV, ?_⟩
    rw [setup_matrix hm, hs.unique hB]
    exact h1 t U

end

end Verif.LDB
