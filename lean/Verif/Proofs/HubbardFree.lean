import Verif.Proofs.HubbardGreen
import Verif.Proofs.DemoLanczos
/-!
# Lemmas for C93: the chain without interaction
-/

namespace Verif.Demo

open Latt LDB Spec Matrix Lanczos GF Cpt

section

variable {n : ℕ} {t : ℝ}

/-- Neighbours on the open chain. -/
def Adj (p q : Fin 2 × Fin n) : Prop := p.1 = q.1 ∧ ((p.2 : ℕ) + 1 = q.2 ∨ (q.2 : ℕ) + 1 = p.2)

instance (p q : Fin 2 × Fin n) : Decidable (Adj p q) := by unfold Adj; infer_instance

theorem chain_sum {M : Type _} [AddCommMonoid M] (f : ℕ → ℕ → M) (q : Fin 2 × Fin n) :
    ∑ i ∈ Finset.range (n - 1), ∑ s ∈ Finset.range 2, ((if s * n + (i + 1) = orbital n q then f s i else 0) +
      if s * n + i = orbital n q then f s (i + 1) else 0) =
    ∑ r : Fin 2 × Fin n, if Adj r q then f r.1 r.2 else 0 := by
  obtain ⟨σ, j⟩ := q
  have hn : 1 ≤ n := by have := j.2; omega
  have hj := j.2
  have hL : ∀ i ∈ Finset.range (n - 1), ∑ s ∈ Finset.range 2, ((if s * n + (i + 1) = orbital n (σ, j) then f s i else 0) +
      if s * n + i = orbital n (σ, j) then f s (i + 1) else 0) =
      (if i + 1 = (j : ℕ) then f σ i else 0) + if i = (j : ℕ) then f σ (i + 1) else 0 := by
    intro i hi
    have hi := Finset.mem_range.1 hi
    rw [Finset.sum_eq_single (σ : ℕ)]
    · unfold orbital
      dsimp only
      simp only [Nat.add_left_cancel_iff]
    · intro s _ hs
      unfold orbital
      dsimp only
      rw [if_neg, if_neg, add_zero]
      · intro he
        exact hs ((index_eq (by omega) j.2).1 he).1
      · intro he
        exact hs ((index_eq (by omega) j.2).1 he).1
    · intro hs
      exact absurd (Finset.mem_range.2 σ.2) hs
  have hR : ∑ r : Fin 2 × Fin n, (if Adj r (σ, j) then f r.1 r.2 else 0) =
      ∑ r ∈ Finset.range n, ((if r + 1 = (j : ℕ) then f σ r else 0) + if (j : ℕ) + 1 = r then f σ r else 0) := by
    rw [Fintype.sum_prod_type, Finset.sum_eq_single σ, Finset.sum_range]
    · refine Finset.sum_congr rfl fun r _ => ?_
      have hadj : Adj (σ, r) (σ, j) ↔ ((r : ℕ) + 1 = j ∨ (j : ℕ) + 1 = r) :=
        ⟨fun h => h.2, fun h => ⟨rfl, h⟩⟩
      by_cases h1 : (r : ℕ) + 1 = j
      · rw [if_pos (hadj.2 (.inl h1)), if_pos h1, if_neg (by omega), add_zero]
      · by_cases h2 : (j : ℕ) + 1 = r
        · rw [if_pos (hadj.2 (.inr h2)), if_neg h1, if_pos h2, zero_add]
        · rw [if_neg (fun h => (hadj.1 h).elim h1 h2), if_neg h1, if_neg h2, add_zero]
    · intro s _ hs
      exact Finset.sum_eq_zero fun r _ => if_neg fun h => hs h.1
    · intro h
      exact absurd (Finset.mem_univ _) h
  rw [Finset.sum_congr rfl hL, hR, Finset.sum_add_distrib, Finset.sum_add_distrib]
  obtain ⟨m, rfl⟩ : ∃ m, n = m + 1 := ⟨n - 1, by omega⟩
  rw [Nat.add_sub_cancel]
  congr 1
  · rw [Finset.sum_range_succ, if_neg (by omega), add_zero]
  · rw [Finset.sum_range_succ', if_neg (by omega), add_zero]
    refine Finset.sum_congr rfl fun i _ => ?_
    exact if_congr (by omega) rfl rfl

theorem free_create (q : Fin 2 × Fin n) : hubbardHamiltonian n t 0 * create (orbital n q) =
    create (orbital n q) * hubbardHamiltonian n t 0 +
      (t : ℂ) • ∑ r : Fin 2 × Fin n, if Adj r q then create (orbital n r) else 0 := by
  have h0 : hubbardHamiltonian n t 0 = (t : ℂ) • ∑ i ∈ Finset.range (n - 1), hopPair n 2 i (i + 1) := by
    unfold hubbardHamiltonian
    rw [Complex.ofReal_zero, zero_smul, zero_add]
  rw [h0, smul_mul_assoc, mul_smul_comm, ← smul_add, Finset.sum_mul, Finset.mul_sum]
  congr 1
  have := chain_sum (fun s i => create (s * n + i)) q
  rw [show (∑ r : Fin 2 × Fin n, if Adj r q then create (orbital n r) else 0) =
    ∑ r : Fin 2 × Fin n, if Adj r q then create (r.1 * n + r.2) else 0 from rfl, ← this, ← Finset.sum_add_distrib]
  refine Finset.sum_congr rfl fun i _ => ?_
  unfold hopPair
  rw [Finset.sum_mul, Finset.mul_sum, ← Finset.sum_add_distrib]
  refine Finset.sum_congr rfl fun s _ => ?_
  rw [add_mul, mul_add, hop_create, hop_create]
  exact add_add_add_comm _ _ _ _

theorem free_annihilate (q : Fin 2 × Fin n) : hubbardHamiltonian n t 0 * annihilate (orbital n q) +
      (t : ℂ) • (∑ r : Fin 2 × Fin n, if Adj r q then annihilate (orbital n r) else 0) =
    annihilate (orbital n q) * hubbardHamiltonian n t 0 := by
  have h0 : hubbardHamiltonian n t 0 = (t : ℂ) • ∑ i ∈ Finset.range (n - 1), hopPair n 2 i (i + 1) := by
    unfold hubbardHamiltonian
    rw [Complex.ofReal_zero, zero_smul, zero_add]
  rw [h0, smul_mul_assoc, mul_smul_comm, ← smul_add, Finset.sum_mul, Finset.mul_sum]
  congr 1
  have := chain_sum (fun s i => annihilate (s * n + i)) q
  rw [show (∑ r : Fin 2 × Fin n, if Adj r q then annihilate (orbital n r) else 0) =
    ∑ r : Fin 2 × Fin n, if Adj r q then annihilate (r.1 * n + r.2) else 0 from rfl, ← this, ← Finset.sum_add_distrib]
  refine Finset.sum_congr rfl fun i _ => ?_
  unfold hopPair
  rw [Finset.sum_mul, Finset.mul_sum, ← Finset.sum_add_distrib]
  refine Finset.sum_congr rfl fun s _ => ?_
  rw [add_mul, mul_add, ← hop_annihilate, ← hop_annihilate, add_comm (if s * n + (i + 1) = _ then _ else _)]
  exact add_add_add_comm _ _ _ _

variable {B0 Bp Bh : List ℕ}

/-- The equation of motion on a basis. -/
theorem free_create_vec (h0 : B0.Nodup) (hp : Bp.Nodup) (hH : MapsTo (hubbardHamiltonian n t 0) B0 B0) {GE : ℂ}
    {GS : Vec B0.length} (hGS : opMat B0 (hubbardHamiltonian n t 0) *ᵥ GS = GE • GS) (q : Fin 2 × Fin n)
    (hC : MapsTo (create (orbital n q)) B0 Bp) :
    opMat Bp (hubbardHamiltonian n t 0) *ᵥ (opMat2 Bp B0 (create (orbital n q)) *ᵥ GS) =
      GE • (opMat2 Bp B0 (create (orbital n q)) *ᵥ GS) +
      (t : ℂ) • ∑ r : Fin 2 × Fin n, if Adj r q then opMat2 Bp B0 (create (orbital n r)) *ᵥ GS else 0 := by
  rw [opMat_eq_opMat2, Matrix.mulVec_mulVec, opMat2_mul hp hC, free_create, map_add,
      map_smul, Matrix.add_mulVec, Matrix.smul_mulVec, ← opMat2_mul h0 hH, ← Matrix.mulVec_mulVec,
      ← opMat_eq_opMat2, hGS, Matrix.mulVec_smul, map_sum, Matrix.sum_mulVec]
  congr 2
  refine Finset.sum_congr rfl fun r _ => ?_
  split
  · rfl
  · rw [map_zero, zero_mulVec]

theorem free_annihilate_vec (h0 : B0.Nodup) (hh : Bh.Nodup) (hH : MapsTo (hubbardHamiltonian n t 0) B0 B0) {GE : ℂ}
    {GS : Vec B0.length} (hGS : opMat B0 (hubbardHamiltonian n t 0) *ᵥ GS = GE • GS) (q : Fin 2 × Fin n)
    (hA : MapsTo (annihilate (orbital n q)) B0 Bh) :
    opMat Bh (hubbardHamiltonian n t 0) *ᵥ (opMat2 Bh B0 (annihilate (orbital n q)) *ᵥ GS) +
      (t : ℂ) • (∑ r : Fin 2 × Fin n, if Adj r q then opMat2 Bh B0 (annihilate (orbital n r)) *ᵥ GS else 0) =
      GE • (opMat2 Bh B0 (annihilate (orbital n q)) *ᵥ GS) := by
  have h := congrArg (fun O => opMat2 Bh B0 O *ᵥ GS) (free_annihilate (t := t) q)
  rw [map_add, map_smul, Matrix.add_mulVec, Matrix.smul_mulVec, ← opMat2_mul hh hA,
      ← Matrix.mulVec_mulVec, ← opMat2_mul h0 hH, ← Matrix.mulVec_mulVec, ← opMat_eq_opMat2, ← opMat_eq_opMat2, hGS,
      Matrix.mulVec_smul, map_sum, Matrix.sum_mulVec] at h
  rw [← h]
  congr 2
  refine Finset.sum_congr rfl fun r _ => ?_
  split
  · rfl
  · rw [map_zero, zero_mulVec]

theorem free_smallC (h0 : B0.Nodup) (hp : Bp.Nodup) (hH : MapsTo (hubbardHamiltonian n t 0) B0 B0)
    {GE : ℂ} {GS : Vec B0.length} (hGS : opMat B0 (hubbardHamiltonian n t 0) *ᵥ GS = GE • GS) {s : ℕ} (hs : s < 2)
    (hC : ∀ j < n, MapsTo (create (s * n + j)) B0 Bp) {i : ℕ} (hi : i < n) :
    SmallKrylov (opMat Bp (hubbardHamiltonian n t 0)) (opMat2 Bp B0 (create (s * n + i)) *ᵥ GS) n := by
  refine ⟨spanC n s B0 Bp GS, mem_spanC hi GS, fun x hx => ?_, finrank_spanC s GS⟩
  have key : spanC n s B0 Bp GS ≤ (spanC n s B0 Bp GS).comap
      (Matrix.toLin' (opMat Bp (hubbardHamiltonian n t 0))) := by
    refine Submodule.span_le.2 ?_
    rintro _ ⟨j, rfl⟩
    change Matrix.toLin' (opMat Bp (hubbardHamiltonian n t 0)) _ ∈ spanC n s B0 Bp GS
    rw [Matrix.toLin'_apply]
    have := free_create_vec h0 hp hH hGS (⟨s, hs⟩, j) (hC j j.2)
    refine (congrArg (· ∈ spanC n s B0 Bp GS) this).mpr ?_
    refine Submodule.add_mem _ (Submodule.smul_mem _ _ (mem_spanC j.2 GS)) (Submodule.smul_mem _ _ ?_)
    refine Submodule.sum_mem _ fun r _ => ?_
    split
    · next he =>
      have : (r.1 : ℕ) = s := congrArg Fin.val he.1
      unfold orbital
      rw [this]
      exact mem_spanC r.2.2 GS
    · exact Submodule.zero_mem _
  exact key hx

theorem free_smallA (h0 : B0.Nodup) (hh : Bh.Nodup) (hH : MapsTo (hubbardHamiltonian n t 0) B0 B0)
    {GE : ℂ} {GS : Vec B0.length} (hGS : opMat B0 (hubbardHamiltonian n t 0) *ᵥ GS = GE • GS) {s : ℕ} (hs : s < 2)
    (hA : ∀ j < n, MapsTo (annihilate (s * n + j)) B0 Bh) {i : ℕ} (hi : i < n) :
    SmallKrylov (opMat Bh (hubbardHamiltonian n t 0)) (opMat2 Bh B0 (annihilate (s * n + i)) *ᵥ GS) n := by
  refine ⟨spanA n s B0 Bh GS, mem_spanA hi GS, fun x hx => ?_, finrank_spanA s GS⟩
  have key : spanA n s B0 Bh GS ≤ (spanA n s B0 Bh GS).comap
      (Matrix.toLin' (opMat Bh (hubbardHamiltonian n t 0))) := by
    refine Submodule.span_le.2 ?_
    rintro _ ⟨j, rfl⟩
    change Matrix.toLin' (opMat Bh (hubbardHamiltonian n t 0)) _ ∈ spanA n s B0 Bh GS
    rw [Matrix.toLin'_apply]
    have := eq_sub_of_add_eq (free_annihilate_vec h0 hh hH hGS (⟨s, hs⟩, j) (hA j j.2))
    refine (congrArg (· ∈ spanA n s B0 Bh GS) this).mpr ?_
    refine Submodule.sub_mem _ (Submodule.smul_mem _ _ (mem_spanA j.2 GS)) (Submodule.smul_mem _ _ ?_)
    refine Submodule.sum_mem _ fun r _ => ?_
    split
    · next he =>
      have : (r.1 : ℕ) = s := congrArg Fin.val he.1
      unfold orbital
      rw [this]
      exact mem_spanA r.2.2 GS
    · exact Submodule.zero_mem _
  exact key hx

/-- The hopping of one particle on the open chain. -/
def chainMat (n : ℕ) (t : ℝ) : Matrix (Fin 2 × Fin n) (Fin 2 × Fin n) ℂ := .of fun r q => if Adj r q then (t : ℂ) else 0

theorem fockInner_sum_right {ι : Type} (s : Finset ι) (f : Fock) (g : ι → Fock) :
    fockInner f (∑ i ∈ s, g i) = ∑ i ∈ s, fockInner f (g i) := by
  classical
  induction s using Finset.induction_on with
  | empty =>
    rw [Finset.sum_empty, Finset.sum_empty, fockInner_eq _ subset_rfl]
    exact Finset.sum_eq_zero fun S _ => by rw [Finsupp.zero_apply, mul_zero]
  | insert a s ha ih => rw [Finset.sum_insert ha, Finset.sum_insert ha, fockInner_add_right, ih]

theorem chain_smul {M : Type _} [AddCommGroup M] [Module ℂ M] (f : Fin 2 × Fin n → M) (z : ℂ) (q : Fin 2 × Fin n) :
    ∑ r, (z • (1 : Matrix (Fin 2 × Fin n) (Fin 2 × Fin n) ℂ) - chainMat n t) r q • f r =
      z • f q - (t : ℂ) • ∑ r, if Adj r q then f r else 0 := by
  have : z • f q = ∑ r, (z • (1 : Matrix (Fin 2 × Fin n) (Fin 2 × Fin n) ℂ)) r q • f r := by
    rw [Finset.sum_eq_single q]
    · rw [Matrix.smul_apply, Matrix.one_apply_eq, smul_eq_mul, mul_one]
    · intro r _ hr
      rw [Matrix.smul_apply, Matrix.one_apply_ne hr, smul_zero, zero_smul]
    · intro h
      exact absurd (Finset.mem_univ _) h
  rw [this, Finset.smul_sum, ← Finset.sum_sub_distrib]
  refine Finset.sum_congr rfl fun r _ => ?_
  rw [Matrix.sub_apply, sub_smul]
  congr 1
  unfold chainMat
  rw [of_apply]
  split
  · rfl
  · rw [zero_smul, smul_zero]

/-- Without interaction the Green function is the resolvent of the hopping matrix, in every eigenstate. -/
theorem free_green {E : ℝ} {psi : Fock} {z : ℂ} (hz : z.im ≠ 0) (hpsi : hubbardHamiltonian n t 0 psi = (E : ℂ) • psi)
    (hone : fockInner psi psi = 1) {G : Matrix (Fin 2 × Fin n) (Fin 2 × Fin n) ℂ}
    (hG : IsClusterGreen n (hubbardHamiltonian n t 0) E psi z G) :
    G * (z • (1 : Matrix (Fin 2 × Fin n) (Fin 2 × Fin n) ℂ) - chainMat n t) = 1 := by
  obtain ⟨x, y, hx, hy, hG⟩ := hG
  have hadj := isAdj_hubbard n t 0
  set H := hubbardHamiltonian n t 0 with hH
  have hc : ∀ q : Fin 2 × Fin n, H (create (orbital n q) psi) = (E : ℂ) • create (orbital n q) psi +
      (t : ℂ) • ∑ r, if Adj r q then create (orbital n r) psi else 0 := by
    intro q
    have := congrArg (fun O : Module.End ℂ Fock => O psi) (free_create (t := t) q)
    simp only [Module.End.mul_apply, LinearMap.add_apply, LinearMap.smul_apply, LinearMap.sum_apply] at this
    rw [← hH, hpsi, map_smul] at this
    rw [this]
    congr 2
    refine Finset.sum_congr rfl fun r _ => ?_
    split <;> rfl
  have ha : ∀ q : Fin 2 × Fin n, H (annihilate (orbital n q) psi) +
      (t : ℂ) • (∑ r, if Adj r q then annihilate (orbital n r) psi else 0) = (E : ℂ) • annihilate (orbital n q) psi := by
    intro q
    have := congrArg (fun O : Module.End ℂ Fock => O psi) (free_annihilate (t := t) q)
    simp only [Module.End.mul_apply, LinearMap.add_apply, LinearMap.smul_apply, LinearMap.sum_apply] at this
    rw [← hH, hpsi, map_smul] at this
    rw [← this]
    congr 2
    refine Finset.sum_congr rfl fun r _ => ?_
    split <;> rfl
  have hX : ∀ q, z • x q - (t : ℂ) • (∑ r, if Adj r q then x r else 0) = create (orbital n q) psi := by
    intro q
    refine green_x_unique (E := E) hadj hz (v := z • create (orbital n q) psi -
      (t : ℂ) • ∑ r, if Adj r q then create (orbital n r) psi else 0) ?_ ?_
    · have e1 : ∀ r, z • (if Adj r q then x r else 0) + (E : ℂ) • (if Adj r q then x r else 0) =
          H (if Adj r q then x r else 0) + if Adj r q then create (orbital n r) psi else 0 := by
        intro r
        split
        · exact hx r
        · simp
      have e2 : z • (∑ r, if Adj r q then x r else 0) + (E : ℂ) • (∑ r, if Adj r q then x r else 0) =
          H (∑ r, if Adj r q then x r else 0) + ∑ r, if Adj r q then create (orbital n r) psi else 0 := by
        rw [Finset.smul_sum, Finset.smul_sum, map_sum, ← Finset.sum_add_distrib, ← Finset.sum_add_distrib]
        exact Finset.sum_congr rfl fun r _ => e1 r
      have e3 := congrArg (fun w => z • w) (hx q)
      have e4 := congrArg (fun w => (t : ℂ) • w) e2
      simp only [smul_add] at e3 e4
      rw [map_sub, map_smul, map_smul, smul_sub, smul_sub, smul_comm (E : ℂ) z, smul_comm z (t : ℂ), smul_comm (E : ℂ) (t : ℂ)]
      rw [sub_add_sub_comm, e3, e4]
      abel
    · rw [hc]
      abel
  ext p q
  rw [Matrix.mul_apply]
  have s1 : ∑ r, G p r * (z • (1 : Matrix (Fin 2 × Fin n) (Fin 2 × Fin n) ℂ) - chainMat n t) r q =
      ∑ r, (z • (1 : Matrix (Fin 2 × Fin n) (Fin 2 × Fin n) ℂ) - chainMat n t) r q • G p r :=
    Finset.sum_congr rfl fun r _ => by rw [smul_eq_mul, mul_comm]
  rw [s1, chain_smul]
  have s2 : ∀ r, G p r = fockInner (create (orbital n p) psi) (x r) +
      fockInner (annihilate (orbital n r) psi) (y p) := fun r => hG p r
  have s3 : (t : ℂ) • (∑ r, if Adj r q then G p r else 0) =
      fockInner (create (orbital n p) psi) ((t : ℂ) • ∑ r, if Adj r q then x r else 0) +
      (t : ℂ) * ∑ r, if Adj r q then fockInner (annihilate (orbital n r) psi) (y p) else 0 := by
    rw [fockInner_smul_right, fockInner_sum_right, smul_eq_mul, ← mul_add, ← Finset.sum_add_distrib]
    congr 1
    refine Finset.sum_congr rfl fun r _ => ?_
    split
    · exact s2 r
    · rw [fockInner_eq _ subset_rfl, Finset.sum_eq_zero fun S _ => by rw [Finsupp.zero_apply, mul_zero], add_zero]
  have s4 : (t : ℂ) * (∑ r, if Adj r q then fockInner (annihilate (orbital n r) psi) (y p) else 0) =
      (E : ℂ) * fockInner (annihilate (orbital n q) psi) (y p) - fockInner (annihilate (orbital n q) psi) (H (y p)) := by
    have e1 := congrArg (fun w => star (fockInner (y p) w)) (ha q)
    rw [fockInner_add_right, fockInner_smul_right, fockInner_smul_right, star_add, star_mul', star_mul',
      fockInner_sum_right, star_sum, fockInner_conj, fockInner_conj] at e1
    rw [fockInner_adj hadj, eq_sub_iff_add_eq, add_comm]
    rw [Complex.star_def, Complex.conj_ofReal, Complex.conj_ofReal] at e1
    rw [← e1]
    congr 2
    refine Finset.sum_congr rfl fun r _ => ?_
    split
    · exact (fockInner_conj _ _).symm
    · rw [fockInner_eq _ subset_rfl, Finset.sum_eq_zero fun S _ => by rw [Finsupp.zero_apply, mul_zero], map_zero]
  have s5 : z * fockInner (annihilate (orbital n q) psi) (y p) - ((E : ℂ) * fockInner (annihilate (orbital n q) psi) (y p) -
      fockInner (annihilate (orbital n q) psi) (H (y p))) = fockInner (annihilate (orbital n q) psi) (annihilate (orbital n p) psi) := by
    have := congrArg (fockInner (annihilate (orbital n q) psi)) (hy p)
    rw [fockInner_add_right, fockInner_add_right, fockInner_smul_right, fockInner_smul_right] at this
    linear_combination this
  have s6 : z * fockInner (create (orbital n p) psi) (x q) -
      fockInner (create (orbital n p) psi) ((t : ℂ) • ∑ r, if Adj r q then x r else 0) =
      fockInner (create (orbital n p) psi) (create (orbital n q) psi) := by
    have := congrArg (fockInner (create (orbital n p) psi)) (eq_add_of_sub_eq (hX q))
    rw [fockInner_add_right, fockInner_smul_right] at this
    linear_combination this
  have s7 := anticommutator_weight psi p q
  rw [hone] at s7
  rw [s3, s4, s2, smul_eq_mul, Matrix.one_apply, ← s7]
  linear_combination s5 + s6

end

end Verif.Demo
