import Verif.Proofs.DemoSum
import Verif.Props.GreenFunction
/-!
# Lemmas for C87: the Lanczos versions of the tight-binding demos
-/

namespace Verif.Demo

open Latt LDB Spec Matrix Lanczos GF

/-- The Krylov space of a vector of an invariant subspace lies in it. -/
theorem krylov_dim_le {N : ℕ} {κ : Type} {M : Matrix (Fin N) (Fin N) ℂ} (hM : M.IsHermitian) {thr : ℝ}
    (ht : 0 ≤ thr) {vectors : κ → Vec N} {v0 : Vec N} {K : ℤ} {rep : Rep κ}
    (h : krylov thr M vectors v0 K = .ok rep) {W : Submodule ℂ (Vec N)} (hv : v0 ∈ W)
    (hW : ∀ x ∈ W, M *ᵥ x ∈ W) {d : ℕ} (hd : Module.finrank ℂ W ≤ d) : rep.dim ≤ d := by
  obtain ⟨V, hV, -⟩ := C56_lanczos_representation hM ht h
  have hpow : ∀ k, (M ^ k) *ᵥ v0 ∈ W := by
    intro k
    induction k with
    | zero => simpa using hv
    | succ k ih =>
      rw [pow_succ', ← Matrix.mulVec_mulVec]
      exact hW _ ih
  have hmem : ∀ j : Fin rep.dim, (fun a => V a j) ∈ W := by
    intro j
    refine Submodule.span_le.2 ?_ (hV.krylov j)
    rintro w ⟨k, -, rfl⟩
    exact hpow k
  have hli : LinearIndependent ℂ (fun j : Fin rep.dim => (⟨fun a => V a j, hmem j⟩ : W)) := by
    rw [Fintype.linearIndependent_iff]
    intro g hg i
    have hg' : ∑ j, g j • (fun a => V a j) = (0 : Vec N) := by
      have := congrArg (W.subtype) hg
      rw [map_sum, map_zero] at this
      exact this
    have h1 : Vᴴ *ᵥ (V *ᵥ g) = g := by rw [Matrix.mulVec_mulVec, hV.orthonormal, Matrix.one_mulVec]
    have h2 : V *ᵥ g = 0 := by
      rw [← hg']
      ext a
      simp [Matrix.mulVec, dotProduct, Finset.sum_apply, mul_comm]
    rw [h2, Matrix.mulVec_zero] at h1
    exact (congrFun h1 i).symm
  have := hli.fintype_card_le_finrank
  rw [Fintype.card_fin] at this
  exact this.trans hd

/-- The Krylov space of `v` has dimension `d` at most: `v` lies in an invariant subspace of this dimension. -/
def SmallKrylov {N : ℕ} (M : Matrix (Fin N) (Fin N) ℂ) (v : Vec N) (d : ℕ) : Prop :=
  ∃ W : Submodule ℂ (Vec N), v ∈ W ∧ (∀ x ∈ W, M *ᵥ x ∈ W) ∧ Module.finrank ℂ W ≤ d

theorem smallKrylov_top {N : ℕ} (M : Matrix (Fin N) (Fin N) ℂ) (v : Vec N) {d : ℕ} (h : N ≤ d) : SmallKrylov M v d :=
  ⟨⊤, trivial, fun _ _ => trivial, by rw [finrank_top, Module.finrank_fin_fun]; exact h⟩

section

variable {n S : ℕ} {t : ℝ} {B0 Bp Bh : List ℕ}

/-- The states with one particle more in a species. -/
noncomputable def spanC (n s : ℕ) (B0 Bp : List ℕ) (GS : Vec B0.length) : Submodule ℂ (Vec Bp.length) :=
  Submodule.span ℂ (Set.range fun j : Fin n => opMat2 Bp B0 (create (s * n + j)) *ᵥ GS)

/-- The states with one particle less in a species. -/
noncomputable def spanA (n s : ℕ) (B0 Bh : List ℕ) (GS : Vec B0.length) : Submodule ℂ (Vec Bh.length) :=
  Submodule.span ℂ (Set.range fun j : Fin n => opMat2 Bh B0 (annihilate (s * n + j)) *ᵥ GS)

theorem mem_spanC {s j : ℕ} (hj : j < n) (GS : Vec B0.length) :
    opMat2 Bp B0 (create (s * n + j)) *ᵥ GS ∈ spanC n s B0 Bp GS :=
  Submodule.subset_span ⟨⟨j, hj⟩, rfl⟩

theorem mem_spanA {s j : ℕ} (hj : j < n) (GS : Vec B0.length) :
    opMat2 Bh B0 (annihilate (s * n + j)) *ᵥ GS ∈ spanA n s B0 Bh GS :=
  Submodule.subset_span ⟨⟨j, hj⟩, rfl⟩

theorem finrank_spanC (s : ℕ) (GS : Vec B0.length) : Module.finrank ℂ (spanC n s B0 Bp GS) ≤ n := by
  have := finrank_range_le_card (R := ℂ) (fun j : Fin n => opMat2 Bp B0 (create (s * n + j)) *ᵥ GS)
  rwa [Fintype.card_fin] at this

theorem finrank_spanA (s : ℕ) (GS : Vec B0.length) : Module.finrank ℂ (spanA n s B0 Bh GS) ≤ n := by
  have := finrank_range_le_card (R := ℂ) (fun j : Fin n => opMat2 Bh B0 (annihilate (s * n + j)) *ᵥ GS)
  rwa [Fintype.card_fin] at this

theorem ring_create (q : ℕ) : ringHamiltonian n S t * create q = create q * ringHamiltonian n S t +
    (t : ℂ) • ∑ i ∈ Finset.range n, ∑ s ∈ Finset.range S,
      ((if s * n + (i + 1) % n = q then create (s * n + i) else 0) +
        if s * n + i = q then create (s * n + (i + 1) % n) else 0) := by
  unfold ringHamiltonian hopPair
  rw [smul_mul_assoc, mul_smul_comm, ← smul_add, Finset.sum_mul, Finset.mul_sum, ← Finset.sum_add_distrib]
  congr 1
  refine Finset.sum_congr rfl fun i _ => ?_
  rw [Finset.sum_mul, Finset.mul_sum, ← Finset.sum_add_distrib]
  refine Finset.sum_congr rfl fun s _ => ?_
  rw [add_mul, mul_add, hop_create, hop_create]
  exact add_add_add_comm _ _ _ _

theorem ring_annihilate (q : ℕ) : ringHamiltonian n S t * annihilate q +
    (t : ℂ) • ∑ i ∈ Finset.range n, ∑ s ∈ Finset.range S,
      ((if s * n + i = q then annihilate (s * n + (i + 1) % n) else 0) +
        if s * n + (i + 1) % n = q then annihilate (s * n + i) else 0) =
    annihilate q * ringHamiltonian n S t := by
  unfold ringHamiltonian hopPair
  rw [smul_mul_assoc, mul_smul_comm, ← smul_add, Finset.sum_mul, Finset.mul_sum, ← Finset.sum_add_distrib]
  congr 1
  refine Finset.sum_congr rfl fun i _ => ?_
  rw [Finset.sum_mul, Finset.mul_sum, ← Finset.sum_add_distrib]
  refine Finset.sum_congr rfl fun s _ => ?_
  rw [add_mul, mul_add, ← hop_annihilate, ← hop_annihilate]
  exact add_add_add_comm _ _ _ _

theorem spanC_invariant (hn : 1 ≤ n) (h0 : B0.Nodup) (hp : Bp.Nodup) (hH : MapsTo (ringHamiltonian n S t) B0 B0)
    {s : ℕ} (hC : ∀ j < n, MapsTo (create (s * n + j)) B0 Bp) {GE : ℂ} {GS : Vec B0.length}
    (hGS : opMat B0 (ringHamiltonian n S t) *ᵥ GS = GE • GS) :
    ∀ x ∈ spanC n s B0 Bp GS, opMat Bp (ringHamiltonian n S t) *ᵥ x ∈ spanC n s B0 Bp GS := by
  intro x hx
  have key : spanC n s B0 Bp GS ≤ (spanC n s B0 Bp GS).comap
      (Matrix.toLin' (opMat Bp (ringHamiltonian n S t))) := by
    refine Submodule.span_le.2 ?_
    rintro _ ⟨j, rfl⟩
    change Matrix.toLin' (opMat Bp (ringHamiltonian n S t)) _ ∈ spanC n s B0 Bp GS
    rw [Matrix.toLin'_apply, opMat_eq_opMat2, Matrix.mulVec_mulVec, opMat2_mul hp (hC j j.2), ring_create, map_add,
      map_smul, Matrix.add_mulVec, Matrix.smul_mulVec, ← opMat2_mul h0 hH, ← Matrix.mulVec_mulVec,
      ← opMat_eq_opMat2, hGS, Matrix.mulVec_smul]
    refine Submodule.add_mem _ (Submodule.smul_mem _ _ (mem_spanC j.2 GS)) (Submodule.smul_mem _ _ ?_)
    rw [map_sum, Matrix.sum_mulVec]
    refine Submodule.sum_mem _ fun i hi => ?_
    have hi := Finset.mem_range.1 hi
    have hi' : (i + 1) % n < n := Nat.mod_lt _ hn
    rw [map_sum, Matrix.sum_mulVec]
    refine Submodule.sum_mem _ fun s' _ => ?_
    rw [map_add, Matrix.add_mulVec]
    refine Submodule.add_mem _ ?_ ?_
    · split
      · next he => rw [((index_eq hi' j.2).1 he).1]; exact mem_spanC hi GS
      · rw [map_zero, Matrix.zero_mulVec]; exact Submodule.zero_mem _
    · split
      · next he => rw [((index_eq hi j.2).1 he).1]; exact mem_spanC hi' GS
      · rw [map_zero, Matrix.zero_mulVec]; exact Submodule.zero_mem _
  exact key hx

theorem spanA_invariant (hn : 1 ≤ n) (h0 : B0.Nodup) (hp : Bh.Nodup) (hH : MapsTo (ringHamiltonian n S t) B0 B0)
    {s : ℕ} (hA : ∀ j < n, MapsTo (annihilate (s * n + j)) B0 Bh) {GE : ℂ} {GS : Vec B0.length}
    (hGS : opMat B0 (ringHamiltonian n S t) *ᵥ GS = GE • GS) :
    ∀ x ∈ spanA n s B0 Bh GS, opMat Bh (ringHamiltonian n S t) *ᵥ x ∈ spanA n s B0 Bh GS := by
  intro x hx
  have key : spanA n s B0 Bh GS ≤ (spanA n s B0 Bh GS).comap
      (Matrix.toLin' (opMat Bh (ringHamiltonian n S t))) := by
    refine Submodule.span_le.2 ?_
    rintro _ ⟨j, rfl⟩
    change Matrix.toLin' (opMat Bh (ringHamiltonian n S t)) _ ∈ spanA n s B0 Bh GS
    have h := congrArg (fun O => opMat2 Bh B0 O *ᵥ GS) (ring_annihilate (n := n) (S := S) (t := t) (s * n + j))
    rw [map_add, map_smul, Matrix.add_mulVec, Matrix.smul_mulVec, ← opMat2_mul hp (hA j j.2),
      ← Matrix.mulVec_mulVec, ← opMat2_mul h0 hH, ← Matrix.mulVec_mulVec, ← opMat_eq_opMat2, ← opMat_eq_opMat2, hGS,
      Matrix.mulVec_smul] at h
    rw [Matrix.toLin'_apply, eq_sub_of_add_eq h]
    refine Submodule.sub_mem _ (Submodule.smul_mem _ _ (mem_spanA j.2 GS)) (Submodule.smul_mem _ _ ?_)
    rw [map_sum, Matrix.sum_mulVec]
    refine Submodule.sum_mem _ fun i hi => ?_
    have hi := Finset.mem_range.1 hi
    have hi' : (i + 1) % n < n := Nat.mod_lt _ hn
    rw [map_sum, Matrix.sum_mulVec]
    refine Submodule.sum_mem _ fun s' _ => ?_
    rw [map_add, Matrix.add_mulVec]
    refine Submodule.add_mem _ ?_ ?_
    · split
      · next he => rw [((index_eq hi j.2).1 he).1]; exact mem_spanA hi' GS
      · rw [map_zero, Matrix.zero_mulVec]; exact Submodule.zero_mem _
    · split
      · next he => rw [((index_eq hi' j.2).1 he).1]; exact mem_spanA hi GS
      · rw [map_zero, Matrix.zero_mulVec]; exact Submodule.zero_mem _
  exact key hx

theorem ring_smallC (hn : 1 ≤ n) (h0 : B0.Nodup) (hp : Bp.Nodup) (hH : MapsTo (ringHamiltonian n S t) B0 B0)
    {Ts : List ℕ} (hC : ∀ s ∈ Ts, ∀ j < n, MapsTo (create (s * n + j)) B0 Bp) {GE : ℝ} {GS : Vec B0.length}
    (hGS : opMat B0 (ringHamiltonian n S t) *ᵥ GS = (GE : ℂ) • GS) :
    ∀ p ∈ sites Ts n, SmallKrylov (opMat Bp (ringHamiltonian n S t)) (opMat2 Bp B0 (create (p.1 * n + p.2)) *ᵥ GS) n := by
  intro p hp'
  have m := mem_sites.1 hp'
  exact ⟨spanC n p.1 B0 Bp GS, mem_spanC m.2 GS, spanC_invariant hn h0 hp hH (hC p.1 m.1) hGS, finrank_spanC p.1 GS⟩

theorem ring_smallA (hn : 1 ≤ n) (h0 : B0.Nodup) (hh : Bh.Nodup) (hH : MapsTo (ringHamiltonian n S t) B0 B0)
    {Ts : List ℕ} (hA : ∀ s ∈ Ts, ∀ j < n, MapsTo (annihilate (s * n + j)) B0 Bh) {GE : ℝ} {GS : Vec B0.length}
    (hGS : opMat B0 (ringHamiltonian n S t) *ᵥ GS = (GE : ℂ) • GS) :
    ∀ p ∈ sites Ts n, SmallKrylov (opMat Bh (ringHamiltonian n S t)) (opMat2 Bh B0 (annihilate (p.1 * n + p.2)) *ᵥ GS) n := by
  intro p hp'
  have m := mem_sites.1 hp'
  exact ⟨spanA n p.1 B0 Bh GS, mem_spanA m.2 GS, spanA_invariant hn h0 hh hH (hA p.1 m.1) hGS, finrank_spanA p.1 GS⟩

end

end Verif.Demo
