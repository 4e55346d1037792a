import Verif.Proofs.HubbardRuns
import Verif.Proofs.FreeFermion
import Verif.Spec.HubbardLimits
import Mathlib.LinearAlgebra.Matrix.Kronecker
import Mathlib.LinearAlgebra.Matrix.PosDef
/-!
# Lemmas for C118: the spectrum of the Hubbard model without interaction
-/

namespace Verif.LDB

open Verif.Latt Verif.Spec Demo Matrix Lanczos

local notation "Op" => Module.End ℂ Fock

variable {n m Nup Ndown : ℕ} {B : List ℕ} {d : ℝ} {points : Fin n → Pt m}

/-- all kets of the vector are in the list -/
def Within (B : List ℕ) (f : Fock) : Prop := ∀ S, f S ≠ 0 → ∃ k ∈ B, S = occ k

theorem stateOf_coeffs (hB : B.Nodup) {f : Fock} (hf : Within B f) : stateOf B (Free.coeffs B f) = f := by
  ext T
  by_cases hT : ∃ k ∈ B, T = occ k
  · obtain ⟨k, hk, rfl⟩ := hT
    obtain ⟨r, hr, rfl⟩ := List.mem_iff_getElem.mp hk
    exact stateOf_apply hB _ ⟨r, hr⟩
  · have h1 : stateOf B (Free.coeffs B f) T = 0 := by
      by_contra h
      exact hT (stateOf_support B _ h)
    rw [h1]
    by_contra h
    exact hT (hf T fun e => h e.symm)

theorem coeffs_eigen (hB : B.Nodup) {O : Op} (hO : MapsTo O B B) {f : Fock} (hf : Within B f) {z : ℂ} (he : O f = z • f) :
    opMat B O *ᵥ Free.coeffs B f = z • Free.coeffs B f := by
  have h1 := apply_stateOf hB hB hO (Free.coeffs B f)
  rw [stateOf_coeffs hB hf, he, ← opMat_eq_opMat2] at h1
  funext r
  have h2 := congrArg (fun g : Fock => g (occ B[r])) h1
  rw [stateOf_apply hB] at h2
  rw [← h2]
  rfl

/-- An orthonormal family of eigenvectors that is large enough gives the spectrum. -/
theorem charpoly_family {ι : Type*} [Fintype ι] [DecidableEq ι] (hB : B.Nodup) {O : Op} (hO : MapsTo O B B) (w : ι → Fock)
    (z : ι → ℂ) (hcard : Fintype.card ι = B.length) (hw : ∀ i, Within B (w i)) (he : ∀ i, O (w i) = z i • w i)
    (ho : ∀ i j, fockInner (w i) (w j) = if i = j then 1 else 0) :
    (opMat B O).charpoly = ∏ i, (Polynomial.X - Polynomial.C (z i)) := by
  let e : Fin B.length ≃ ι := (Fintype.equivOfCardEq (by rw [hcard, Fintype.card_fin])).symm
  let W : Matrix (Fin B.length) (Fin B.length) ℂ := Matrix.of fun r c => Free.coeffs B (w (e c)) r
  let D : Matrix (Fin B.length) (Fin B.length) ℂ := Matrix.diagonal fun c => z (e c)
  have hMW : opMat B O * W = W * D := by
    ext r c
    rw [Matrix.mul_diagonal]
    have h2 := congrFun (coeffs_eigen hB hO (hw (e c)) (he (e c))) r
    rw [mul_comm]
    exact h2
  have hWW : Wᴴ * W = 1 := by
    ext a b
    rw [Matrix.one_apply]
    have h1 : (Wᴴ * W) a b = vdot (Free.coeffs B (w (e a))) (Free.coeffs B (w (e b))) := rfl
    rw [h1, ← fockInner_stateOf hB, stateOf_coeffs hB (hw _), stateOf_coeffs hB (hw _), ho]
    simp only [EmbeddingLike.apply_eq_iff_eq]
  have hWW' : W * Wᴴ = 1 := mul_eq_one_comm.mp hWW
  have hM : opMat B O = W * D * Wᴴ := by
    rw [← hMW, mul_assoc, hWW', mul_one]
  rw [hM, Matrix.charpoly_mul_comm, ← mul_assoc, hWW, one_mul, Matrix.charpoly_diagonal]
  exact e.prod_comp fun i => (Polynomial.X - Polynomial.C (z i))

/-! ### The free Hamiltonian -/

/-- spin and point to mode -/
def mode (n : ℕ) : Fin 2 × Fin n ≃ Fin (2 * n) := finProdFinEquiv

theorem mode_val (p : Fin 2 × Fin n) : (mode n p : ℕ) = p.1 * n + p.2 := by
  simp [mode, finProdFinEquiv]
  ring

open scoped Kronecker in
/-- the same matrix for both spins -/
def twice (h : Matrix (Fin n) (Fin n) ℂ) : Matrix (Fin (2 * n)) (Fin (2 * n)) ℂ :=
  ((1 : Matrix (Fin 2) (Fin 2) ℂ) ⊗ₖ h).submatrix (mode n).symm (mode n).symm

theorem twice_apply (h : Matrix (Fin n) (Fin n) ℂ) (p q : Fin 2 × Fin n) :
    twice h (mode n p) (mode n q) = if p.1 = q.1 then h p.2 q.2 else 0 := by
  simp [twice, Matrix.kroneckerMap_apply, Matrix.one_apply]

theorem twice_mul (h h' : Matrix (Fin n) (Fin n) ℂ) : twice (h * h') = twice h * twice h' := by
  unfold twice
  rw [Matrix.submatrix_mul_equiv, ← Matrix.mul_kronecker_mul, one_mul]

theorem twice_one : twice (1 : Matrix (Fin n) (Fin n) ℂ) = 1 := by
  unfold twice
  rw [Matrix.one_kronecker_one, Matrix.submatrix_one_equiv]

theorem twice_adj (h : Matrix (Fin n) (Fin n) ℂ) : twice hᴴ = (twice h)ᴴ := by
  unfold twice
  rw [Matrix.conjTranspose_submatrix, Matrix.conjTranspose_kronecker, Matrix.conjTranspose_one]

theorem twice_diagonal (z : Fin n → ℂ) :
    twice (Matrix.diagonal z) = Matrix.diagonal fun k => z ((mode n).symm k).2 := by
  ext a b
  obtain ⟨p, rfl⟩ := (mode n).surjective a
  obtain ⟨q, rfl⟩ := (mode n).surjective b
  rw [twice_apply, Matrix.diagonal_apply, Matrix.diagonal_apply, Equiv.symm_apply_apply]
  by_cases h : p = q
  · subst h; simp
  · rw [if_neg (fun e => h ((mode n).injective e))]
    split
    · next h1 => rw [if_neg (fun h2 => h (Prod.ext h1 h2))]
    · rfl

theorem sum_offdiag {M : Type*} [AddCommMonoid M] (f : Fin n → Fin n → M) (hf : ∀ i, f i i = 0) :
    ∑ i, ∑ j, f i j = ∑ p : Fin n × Fin n with p.1 < p.2, (f p.1 p.2 + f p.2 p.1) := by
  classical
  rw [← Fintype.sum_prod_type' f, Finset.sum_add_distrib,
    ← Finset.sum_filter_add_sum_filter_not Finset.univ (fun p : Fin n × Fin n => p.1 < p.2)]
  congr 1
  rw [← Finset.sum_filter_add_sum_filter_not (Finset.univ.filter fun p : Fin n × Fin n => ¬ p.1 < p.2)
    (fun p : Fin n × Fin n => p.2 < p.1)]
  have h0 : ∑ p ∈ ((Finset.univ.filter fun p : Fin n × Fin n => ¬ p.1 < p.2).filter fun p => ¬ p.2 < p.1), f p.1 p.2 = 0 := by
    refine Finset.sum_eq_zero fun p hp => ?_
    simp only [Finset.mem_filter, Finset.mem_univ, true_and] at hp
    have : p.1 = p.2 := le_antisymm (not_lt.1 hp.2) (not_lt.1 hp.1)
    rw [this, hf]
  rw [h0, add_zero]
  refine Finset.sum_bij (fun p _ => (p.2, p.1)) ?_ ?_ ?_ ?_
  · intro p hp
    simp only [Finset.mem_filter, Finset.mem_univ, true_and] at hp ⊢
    exact hp.2
  · rintro ⟨a, b⟩ _ ⟨a', b'⟩ _ h
    simp only [Prod.mk.injEq] at h ⊢
    exact h.symm
  · rintro ⟨a, b⟩ h
    simp only [Finset.mem_filter, Finset.mem_univ, true_and] at h
    refine ⟨(b, a), ?_, rfl⟩
    simp only [Finset.mem_filter, Finset.mem_univ, true_and]
    exact ⟨h.not_gt, h⟩
  · intro p _
    rfl

theorem clusterHopping_hermitian (d : ℝ) (points : Fin n → Pt m) (t : ℝ) : (clusterHopping d points t).IsHermitian := by
  classical
  ext i j
  rw [Matrix.conjTranspose_apply]
  unfold clusterHopping
  simp only [Matrix.of_apply]
  have : (j ≠ i ∧ ndist (points j) (points i) = d) ↔ (i ≠ j ∧ ndist (points i) (points j) = d) := by
    rw [ne_comm, show ndist (points j) (points i) = ndist (points i) (points j) from by
      unfold ndist
      congr 1
      exact Finset.sum_congr rfl fun k _ => by ring]
  by_cases h : i ≠ j ∧ ndist (points i) (points j) = d
  · rw [if_pos (this.2 h), if_pos h]
    exact Complex.conj_ofReal t
  · rw [if_neg (fun h' => h (this.1 h')), if_neg h, star_zero]

theorem clusterHubbard_free (d : ℝ) (points : Fin n → Pt m) (t : ℝ) :
    clusterHubbard d points t 0 = Free.quadratic (twice (clusterHopping d points t)) := by
  classical
  have e1 : Free.quadratic (twice (clusterHopping d points t)) = ∑ i : Fin n, ∑ j : Fin n, ∑ s : Fin 2,
      clusterHopping d points t i j • (create (s * n + i) * annihilate (s * n + j)) := by
    have e2 : ∀ (s : Fin 2) (i : Fin n), (∑ b : Fin (2 * n), twice (clusterHopping d points t) (mode n (s, i)) b •
        (create (mode n (s, i) : ℕ) * annihilate (b : ℕ)) : Op) =
        ∑ j : Fin n, clusterHopping d points t i j • (create (s * n + i) * annihilate (s * n + j)) := by
      intro s i
      rw [← (mode n).sum_comp, Fintype.sum_prod_type, Finset.sum_eq_single s]
      · simp only [twice_apply, mode_val, if_true]
      · intro s' _ hs
        refine Finset.sum_eq_zero fun j _ => ?_
        rw [twice_apply, if_neg (fun e => hs e.symm), zero_smul]
      · intro h; exact absurd (Finset.mem_univ s) h
    unfold Free.quadratic
    rw [← (mode n).sum_comp, Fintype.sum_prod_type, Finset.sum_comm]
    refine Finset.sum_congr rfl fun i _ => ?_
    rw [Finset.sum_congr rfl fun s _ => e2 s i, Finset.sum_comm]
  rw [e1, sum_offdiag]
  · unfold clusterHubbard
    rw [Complex.ofReal_zero, zero_smul, zero_add, Finset.smul_sum, ← Finset.filter_filter, Finset.sum_filter]
    refine Finset.sum_congr rfl fun p hp => ?_
    have hne : p.1 ≠ p.2 := ne_of_lt (Finset.mem_filter.1 hp).2
    have h1 : ∀ i j : Fin n, i ≠ j → clusterHopping d points t i j =
        if ndist (points i) (points j) = d then (t : ℂ) else 0 := fun i j h => by
      unfold clusterHopping
      simp only [Matrix.of_apply, h, ne_eq, not_false_eq_true, true_and]
    rw [h1 _ _ hne, h1 _ _ hne.symm, ndist_comm (points p.2)]
    by_cases h : ndist (points p.1) (points p.2) = d
    · rw [if_pos h, if_pos h]
      unfold hopPair
      rw [Finset.sum_range, Finset.smul_sum, ← Finset.sum_add_distrib]
      exact Finset.sum_congr rfl fun s _ => smul_add _ _ _
    · rw [if_neg h, if_neg h]
      simp
  · intro i
    refine Finset.sum_eq_zero fun s _ => ?_
    unfold clusterHopping
    simp

/-! ### The eigenstates -/

/-- kets with these numbers of particles -/
def InSpin (n a b : ℕ) (f : Fock) : Prop := ∀ S, f S ≠ 0 → S ⊆ Finset.range (2 * n) ∧
  (S.filter (n ≤ ·)).card = a ∧ (S.filter (· < n)).card = b

theorem InSpin.within (hB : SpinSector n Nup Ndown B) {f : Fock} (hf : InSpin n Nup Ndown f) : Within B f := by
  intro S hS
  obtain ⟨k, rfl⟩ := Free.exists_occ S
  exact ⟨k, (hB.2 k).2 (hf _ hS), rfl⟩

theorem InSpin.create {a b : ℕ} {f : Fock} (hf : InSpin n a b f) (s : Fin 2) (i : Fin n) :
    InSpin n (a + s) (b + (1 - s)) (create (s * n + i) f) := by
  intro S hS
  rw [apply_eq_finsum _ f f.support subset_rfl] at hS
  obtain ⟨T, hT, h⟩ := Finset.exists_ne_zero_of_sum_ne_zero hS
  obtain ⟨h1, h2, h3⟩ := hf T (Finsupp.mem_support_iff.mp hT)
  have h := right_ne_zero_of_mul h
  unfold matrixElement at h
  rw [create_ket] at h
  split at h
  · simp at h
  next hi =>
  rw [Finsupp.smul_apply] at h
  have := Free.ket_apply_ne (right_ne_zero_of_mul h)
  subst this
  have hin := i.2
  refine ⟨?_, ?_, ?_⟩
  · intro x hx
    rcases Finset.mem_insert.mp hx with rfl | hx
    · exact Finset.mem_range.mpr (site_lt (S := 2) s.2 i.2)
    · exact h1 hx
  · rw [Finset.filter_insert]
    fin_cases s
    · rw [if_neg (by simp), h2]; rfl
    · rw [if_pos (by simp), Finset.card_insert_of_notMem (fun h => hi (Finset.mem_of_mem_filter _ h)), h2]
  · rw [Finset.filter_insert]
    fin_cases s
    · rw [if_pos (by simp), Finset.card_insert_of_notMem (fun h => hi (Finset.mem_of_mem_filter _ h)), h3]
      rfl
    · rw [if_neg (by simp), h3]; rfl

theorem InSpin.sum {a b : ℕ} {ι : Type*} {s : Finset ι} {f : ι → Fock} (hf : ∀ i ∈ s, InSpin n a b (f i)) :
    InSpin n a b (∑ i ∈ s, f i) := by
  intro S hS
  rw [Finsupp.finsetSum_apply] at hS
  obtain ⟨i, hi, h⟩ := Finset.exists_ne_zero_of_sum_ne_zero hS
  exact hf i hi S h

theorem InSpin.smul {a b : ℕ} {f : Fock} (hf : InSpin n a b f) (z : ℂ) : InSpin n a b (z • f) := by
  intro S hS
  rw [Finsupp.smul_apply, smul_eq_mul] at hS
  exact hf S (right_ne_zero_of_mul hS)

theorem InSpin.modC {a b : ℕ} {f : Fock} (hf : InSpin n a b f) (V : Matrix (Fin n) (Fin n) ℂ) (s : Fin 2) (k : Fin n) :
    InSpin n (a + s) (b + (1 - s)) (Free.modC (twice V) (mode n (s, k)) f) := by
  have e : Free.modC (twice V) (mode n (s, k)) = ∑ i : Fin n, V i k • Spec.create (s * n + i) := by
    unfold Free.modC
    rw [← (mode n).sum_comp, Fintype.sum_prod_type, Finset.sum_eq_single s]
    · simp only [twice_apply, mode_val, if_true]
    · intro s' _ hs
      refine Finset.sum_eq_zero fun j _ => ?_
      rw [twice_apply, if_neg hs, zero_smul]
    · intro h; exact absurd (Finset.mem_univ s) h
  rw [e, LinearMap.sum_apply]
  exact InSpin.sum fun i _ => (hf.create s i).smul _

/-- the occupied modes -/
noncomputable def filled (A D : Finset (Fin n)) : List (Fin (2 * n)) :=
  A.toList.map (fun k => mode n (1, k)) ++ D.toList.map fun k => mode n (0, k)

theorem mem_filled {A D : Finset (Fin n)} {s : Fin 2} {k : Fin n} :
    mode n (s, k) ∈ filled A D ↔ (s = 1 ∧ k ∈ A) ∨ (s = 0 ∧ k ∈ D) := by
  unfold filled
  rw [List.mem_append, List.mem_map, List.mem_map]
  simp only [Finset.mem_toList, EmbeddingLike.apply_eq_iff_eq, Prod.mk.injEq]
  constructor
  · rintro (⟨a, h1, h2, rfl⟩ | ⟨a, h1, h2, rfl⟩)
    · exact .inl ⟨h2.symm, h1⟩
    · exact .inr ⟨h2.symm, h1⟩
  · rintro (⟨h1, h2⟩ | ⟨h1, h2⟩)
    · exact .inl ⟨k, h2, h1.symm, rfl⟩
    · exact .inr ⟨k, h2, h1.symm, rfl⟩

theorem filled_nodup (A D : Finset (Fin n)) : (filled A D).Nodup := by
  unfold filled
  refine List.Nodup.append ?_ ?_ ?_
  · exact A.nodup_toList.map fun a b h => by simpa using h
  · exact D.nodup_toList.map fun a b h => by simpa using h
  · intro x h1 h2
    obtain ⟨a, -, rfl⟩ := List.mem_map.1 h1
    obtain ⟨b, -, h⟩ := List.mem_map.1 h2
    simp at h

theorem slater_spin (V : Matrix (Fin n) (Fin n) ℂ) (l l' : List (Fin n)) :
    InSpin n l.length l'.length (Free.slater (twice V) (l.map (fun k => mode n (1, k)) ++ l'.map fun k => mode n (0, k))) := by
  induction l with
  | nil =>
    induction l' with
    | nil =>
      intro S hS
      rw [show Free.slater (twice V) _ = ket ∅ by simp [Free.slater]] at hS
      rw [Free.ket_apply_ne hS]
      simp
    | cons k l' ih =>
      rw [List.map_nil, List.nil_append, List.map_cons, Free.slater_cons]
      exact InSpin.modC ih V 0 k
  | cons k l ih =>
    rw [List.map_cons, List.cons_append, Free.slater_cons]
    exact InSpin.modC ih V 1 k

theorem length_sector (hB : SpinSector n Nup Ndown B) : B.length = (choices n Nup ×ˢ choices n Ndown).card := by
  classical
  have hlen : B.length = (B.toFinset.image occ).card := by
    rw [Finset.card_image_of_injective _ (fun a b h => occ_injective h), List.toFinset_card_of_nodup hB.nodup]
  rw [hlen]
  symm
  have hup : ∀ (A : Finset (Fin n)) (x : ℕ), x ∈ A.image (fun i : Fin n => n + (i : ℕ)) → n ≤ x ∧ x < 2 * n := by
    intro A x hx
    obtain ⟨i, -, rfl⟩ := Finset.mem_image.1 hx
    omega
  have hdn : ∀ (A : Finset (Fin n)) (x : ℕ), x ∈ A.image (fun i : Fin n => (i : ℕ)) → x < n := by
    intro A x hx
    obtain ⟨i, -, rfl⟩ := Finset.mem_image.1 hx
    exact i.2
  have iu : Function.Injective fun i : Fin n => n + (i : ℕ) := fun i j h => Fin.ext (by dsimp only at h; omega)
  have id : Function.Injective fun i : Fin n => (i : ℕ) := fun i j h => Fin.ext h
  have fu : ∀ A D : Finset (Fin n), (A.image (fun i : Fin n => n + (i : ℕ)) ∪ D.image fun i : Fin n => (i : ℕ)).filter (n ≤ ·) =
      A.image (fun i : Fin n => n + (i : ℕ)) := by
    intro A D
    ext x
    rw [Finset.mem_filter, Finset.mem_union]
    constructor
    · rintro ⟨h | h, h'⟩
      · exact h
      · have := hdn D x h; omega
    · exact fun h => ⟨.inl h, (hup A x h).1⟩
  have fd : ∀ A D : Finset (Fin n), (A.image (fun i : Fin n => n + (i : ℕ)) ∪ D.image fun i : Fin n => (i : ℕ)).filter (· < n) =
      D.image fun i : Fin n => (i : ℕ) := by
    intro A D
    ext x
    rw [Finset.mem_filter, Finset.mem_union]
    constructor
    · rintro ⟨h | h, h'⟩
      · have := hup A x h; omega
      · exact h
    · exact fun h => ⟨.inr h, hdn D x h⟩
  refine Finset.card_bij (fun p _ => p.1.image (fun i : Fin n => n + (i : ℕ)) ∪ p.2.image fun i : Fin n => (i : ℕ)) ?_ ?_ ?_
  · rintro ⟨A, D⟩ h
    rw [Finset.mem_product, choices, choices, Finset.mem_powersetCard, Finset.mem_powersetCard] at h
    obtain ⟨k, hk⟩ := Free.exists_occ (A.image (fun i : Fin n => n + (i : ℕ)) ∪ D.image fun i : Fin n => (i : ℕ))
    refine Finset.mem_image.2 ⟨k, List.mem_toFinset.2 ((hB.2 k).2 ?_), hk⟩
    rw [hk, fu, fd, Finset.card_image_of_injective _ iu, Finset.card_image_of_injective _ id]
    refine ⟨?_, h.1.2, h.2.2⟩
    intro x hx
    rw [Finset.mem_range]
    rcases Finset.mem_union.1 hx with h | h
    · exact (hup A x h).2
    · have := hdn D x h; omega
  · rintro ⟨A, D⟩ - ⟨A', D'⟩ - h
    dsimp only at h
    have h1 := congrArg (Finset.filter (n ≤ ·)) h
    have h2 := congrArg (Finset.filter (· < n)) h
    rw [fu, fu] at h1
    rw [fd, fd] at h2
    exact Prod.ext (Finset.image_injective iu h1) (Finset.image_injective id h2)
  · intro S hS
    obtain ⟨k, hk, rfl⟩ := Finset.mem_image.1 hS
    obtain ⟨h1, h2, h3⟩ := (hB.2 k).1 (List.mem_toFinset.1 hk)
    have eu : (Finset.univ.filter fun i : Fin n => n + (i : ℕ) ∈ occ k).image (fun i : Fin n => n + (i : ℕ)) =
        (occ k).filter (n ≤ ·) := by
      ext x
      rw [Finset.mem_image, Finset.mem_filter]
      constructor
      · rintro ⟨i, hi, rfl⟩
        exact ⟨(Finset.mem_filter.1 hi).2, by omega⟩
      · rintro ⟨hx, hn⟩
        have := Finset.mem_range.1 (h1 hx)
        refine ⟨⟨x - n, by omega⟩, Finset.mem_filter.2 ⟨Finset.mem_univ _, ?_⟩, ?_⟩ <;> dsimp only
        · rwa [Nat.add_sub_cancel' hn]
        · omega
    have ed : (Finset.univ.filter fun i : Fin n => (i : ℕ) ∈ occ k).image (fun i : Fin n => (i : ℕ)) =
        (occ k).filter (· < n) := by
      ext x
      rw [Finset.mem_image, Finset.mem_filter]
      constructor
      · rintro ⟨i, hi, rfl⟩
        exact ⟨(Finset.mem_filter.1 hi).2, i.2⟩
      · rintro ⟨hx, hn⟩
        exact ⟨⟨x, hn⟩, Finset.mem_filter.2 ⟨Finset.mem_univ _, hx⟩, rfl⟩
    refine ⟨(Finset.univ.filter fun i : Fin n => n + (i : ℕ) ∈ occ k, Finset.univ.filter fun i : Fin n => (i : ℕ) ∈ occ k),
      ?_, ?_⟩
    · rw [Finset.mem_product, choices, choices, Finset.mem_powersetCard, Finset.mem_powersetCard,
        ← Finset.card_image_of_injective _ iu, ← Finset.card_image_of_injective (f := fun i : Fin n => (i : ℕ)) _ id]
      dsimp only
      rw [eu, ed]
      exact ⟨⟨Finset.subset_univ _, h2⟩, Finset.subset_univ _, h3⟩
    · dsimp only
      rw [eu, ed]
      ext x
      rw [Finset.mem_union, Finset.mem_filter, Finset.mem_filter]
      have := Nat.lt_or_ge x n
      tauto

theorem free_charpoly (hB : SpinSector n Nup Ndown B) (t : ℝ) (h : (clusterHopping d points t).IsHermitian) :
    (opMat B (clusterHubbard d points t 0)).charpoly = ∏ A ∈ choices n Nup, ∏ D ∈ choices n Ndown,
      (Polynomial.X - Polynomial.C ((∑ k ∈ A, h.eigenvalues k + ∑ k ∈ D, h.eigenvalues k : ℝ) : ℂ)) := by
  classical
  set V := (h.eigenvectorUnitary : Matrix (Fin n) (Fin n) ℂ) with hV
  have h1 : Vᴴ * V = 1 := Unitary.coe_star_mul_self h.eigenvectorUnitary
  have h3 : clusterHopping d points t * V = V * Matrix.diagonal fun k => (h.eigenvalues k : ℂ) := by
    ext i k
    rw [Matrix.mul_diagonal, Matrix.mul_apply]
    have := congrFun (h.mulVec_eigenvectorBasis k) i
    rw [Pi.smul_apply] at this
    simp only [hV, Matrix.IsHermitian.eigenvectorUnitary_apply]
    rw [mul_comm]
    exact this
  have h1' : (twice V)ᴴ * twice V = 1 := by rw [← twice_adj, ← twice_mul, h1, twice_one]
  have h3' : twice (clusterHopping d points t) * twice V = twice V * Matrix.diagonal fun k =>
      ((h.eigenvalues ((mode n).symm k).2 : ℝ) : ℂ) := by
    rw [← twice_mul, h3, twice_mul, twice_diagonal]
  let P := choices n Nup ×ˢ choices n Ndown
  have := charpoly_family (ι := P) hB.nodup (mapsTo_clusterHubbard hB d points t 0)
    (fun p => Free.slater (twice V) (filled p.1.1 p.1.2))
    (fun p => ((∑ k ∈ p.1.1, h.eigenvalues k + ∑ k ∈ p.1.2, h.eigenvalues k : ℝ) : ℂ)) ?_ ?_ ?_ ?_
  · rw [this, Finset.prod_coe_sort P fun p => (Polynomial.X - Polynomial.C
      ((∑ k ∈ p.1, h.eigenvalues k + ∑ k ∈ p.2, h.eigenvalues k : ℝ) : ℂ)), Finset.prod_product]
  · rw [Fintype.card_coe, length_sector hB]
  · rintro ⟨⟨A, D⟩, hp⟩
    have hp := Finset.mem_product.1 hp
    have hs := slater_spin V A.toList D.toList
    rw [Finset.length_toList, Finset.length_toList, (Finset.mem_powersetCard.1 hp.1).2,
      (Finset.mem_powersetCard.1 hp.2).2] at hs
    exact hs.within hB
  · rintro ⟨⟨A, D⟩, hp⟩
    dsimp only
    rw [clusterHubbard_free, Free.slater_eigen h3']
    congr 2
    unfold filled
    rw [List.map_append, List.sum_append, List.map_map, List.map_map]
    have e : ∀ (s : Fin 2) (A : Finset (Fin n)), (A.toList.map ((fun k => h.eigenvalues ((mode n).symm k).2) ∘
        fun k => mode n (s, k))).sum = ∑ k ∈ A, h.eigenvalues k := by
      intro s A
      rw [← Finset.sum_map_toList]
      congr 1
      refine List.map_congr_left fun k _ => ?_
      simp
    rw [e, e]
  · rintro ⟨⟨A, D⟩, hp⟩ ⟨⟨A', D'⟩, hp'⟩
    dsimp only
    by_cases he : A = A' ∧ D = D'
    · obtain ⟨rfl, rfl⟩ := he
      rw [if_pos rfl]
      exact Free.slater_inner_self h1' _ (filled_nodup A D)
    · rw [if_neg (fun e => he (by simpa using e))]
      have hp := Finset.mem_product.1 hp
      have hp' := Finset.mem_product.1 hp'
      have c1 := (Finset.mem_powersetCard.1 hp.1).2
      have c2 := (Finset.mem_powersetCard.1 hp.2).2
      have c1' := (Finset.mem_powersetCard.1 hp'.1).2
      have c2' := (Finset.mem_powersetCard.1 hp'.2).2
      dsimp only at c1 c2 c1' c2'
      obtain ⟨s, k, hk, hk'⟩ : ∃ s k, mode n (s, k) ∈ filled A D ∧ mode n (s, k) ∉ filled A' D' := by
        by_cases hA : A = A'
        · have hD : ¬ D ⊆ D' := fun hs => he ⟨hA, Finset.eq_of_subset_of_card_le hs (by omega)⟩
          obtain ⟨k, h, h'⟩ := Finset.not_subset.1 hD
          refine ⟨0, k, mem_filled.2 (.inr ⟨rfl, h⟩), fun hm => ?_⟩
          rcases mem_filled.1 hm with h | h
          · exact absurd h.1 (by decide)
          · exact h' h.2
        · have hD : ¬ A ⊆ A' := fun hs => hA (Finset.eq_of_subset_of_card_le hs (by omega))
          obtain ⟨k, h, h'⟩ := Finset.not_subset.1 hD
          refine ⟨1, k, mem_filled.2 (.inl ⟨rfl, h⟩), fun hm => ?_⟩
          rcases mem_filled.1 hm with h | h
          · exact h' h.2
          · exact absurd h.1 (by decide)
      exact Free.slater_inner_ne h1' _ _ (filled_nodup A D) _ hk hk'

end Verif.LDB
