import Verif.Proofs.FreeFermion
import Verif.Proofs.HubbardH
import Verif.Props.Sectors
/-!
# C98: free fermions

The Hamiltonian of hopping terms and number operators in the sector of `N` particles has as spectrum the sums of `N`
different one-particle energies, with multiplicities.
-/

namespace Verif

open Spec Matrix Lanczos Demo Free

/-- `t` is `coeff * c_a^dagger c_b` with `a`, `b` among the first `n` states of the table (a hopping term, a number
operator, or an unclassified term of this form). -/
def IsQuadratic (table : IndexTable StateID) (n : ℕ) (t : ParticleTerm) : Prop :=
  t.checkCompatibility = true ∧ ∃ a b : StateID, t.aocs = [⟨.creation, a⟩, ⟨.annihilation, b⟩] ∧
    (∃ i < n, table.queryIndex a = .ok (i : ℕ)) ∧ ∃ j < n, table.queryIndex b = .ok (j : ℕ)

/-- The characteristic polynomial of a Hamiltonian whose eigenvalues are the sums of `N` different ones of the numbers
`eps`. -/
noncomputable def sumsOf {n : ℕ} (N : ℕ) (eps : Fin n → ℝ) : Polynomial ℂ :=
  ∏ K ∈ Finset.powersetCard N (Finset.univ : Finset (Fin n)),
    (Polynomial.X - Polynomial.C ((∑ k ∈ K, eps k : ℝ) : ℂ))

/-- the matrices of quadratic terms on a sector -/
theorem quadratic_matrices {objs : List StateID} {s : ℤ} {table : IndexTable StateID}
    (hT : IndexTable.init objs s = .ok table) {n : ℕ} (h64 : n ≤ 64) (ts : List ParticleTerm)
    (hq : ∀ t ∈ ts, IsQuadratic table n t) :
    ∃ h : Matrix (Fin n) (Fin n) ℂ, ∀ (N : ℕ) (B : List ℕ), ListsSector n N B → B.Pairwise (· < ·) →
      ∃ Ms, List.Forall₂ (fun t M => (ParticleTerm.matrixRepr t table B).2 = .ok M) ts Ms ∧
        sumMatrix B.length Ms = opMat B (quadratic h) := by
  induction ts with
  | nil =>
    refine ⟨0, fun N B _ _ => ⟨[], .nil, ?_⟩⟩
    rw [quadratic_zero, map_zero]
    rfl
  | cons t ts ih =>
    obtain ⟨h, hh⟩ := ih fun u hu => hq u (List.mem_cons_of_mem _ hu)
    obtain ⟨hct, a, b, haocs, ⟨i, hi, ha⟩, j, hj, hb⟩ := hq t List.mem_cons_self
    refine ⟨Matrix.single ⟨i, hi⟩ ⟨j, hj⟩ t.coeff + h, fun N B hB hasc => ?_⟩
    obtain ⟨Ms, hMs, hsum⟩ := hh N B hB hasc
    have hcl : MapsTo (termOperator [((i : ℤ), .creation), ((j : ℤ), .annihilation)]) B B := by
      have e : termOperator [((i : ℤ), .creation), ((j : ℤ), .annihilation)] = create i * annihilate j := by
        simp [termOperator, fockProduct, fockOp]
      rw [e]
      exact mapsTo_hop hB ⟨i, hi⟩ ⟨j, hj⟩
    have hv : ValidTerm [((i : ℤ), Otype.creation), ((j : ℤ), .annihilation)] := by
      refine ⟨by simp, ?_⟩
      intro p hp
      simp only [List.mem_cons, List.not_mem_nil, or_false] at hp
      rcases hp with rfl | rfl <;> simp <;> omega
    have hind : ({ t with classification := .general } : ParticleTerm).indexed table =
        .ok [((i : ℤ), .creation), ((j : ℤ), .annihilation)] := by
      unfold ParticleTerm.indexed
      simp only [haocs]
      rw [mapM_ok_iff]
      exact .cons (by simp [ha, bind, Except.bind, pure, Except.pure])
        (.cons (by simp [hb, bind, Except.bind, pure, Except.pure]) .nil)
    obtain ⟨M, hM⟩ := general_csr_of (right := B) (left := none) t.coeff hv hasc (fun h => h) (mapsTo_iff_image.1 hcl)
    refine ⟨M :: Ms, .cons ?_ hMs, ?_⟩
    · rw [C23_compatible_terms_partial objs s table hT t B none hct fun _ => ⟨rfl, hasc⟩, matrixRepr_none, hind]
      exact hM
    · rw [quadratic_add, map_add, ← hsum, quadratic_single]
      simp only [sumMatrix, List.map_cons, List.sum_cons]
      congr 1
      ext r c
      rw [map_smul, Matrix.smul_apply, opMat_apply]
      have := general_csr_get hM (hasc.imp fun h => Nat.ne_of_lt h) r c r.2 c.2
      simp only [Option.getD_none] at this
      change M.get r c = _
      rw [this]
      simp [termOperator, fockProduct, fockOp]

theorem occ_card_of_range {n : ℕ} {k : ℕ} (h : ∀ i, k.testBit i = true → i < n) :
    ((List.range n).filter (fun i => k.testBit i)).length = (occ k).card := by
  rw [← List.toFinset_card_of_nodup (List.nodup_range.filter _)]
  congr 1
  ext i
  simp only [List.mem_toFinset, List.mem_filter, List.mem_range, mem_occ]
  exact ⟨fun h => h.2, fun h' => ⟨h i h', h'⟩⟩

/-- `base_vectors((n, N))` -/
theorem sector_basis {n : ℕ} (hn : 0 < n) (h64 : n ≤ 64) {N : ℕ} (hN : N ≤ n) :
    ∃ kets, baseVectors [.tuple [.int n, .int N]] = .ok kets ∧ kets.Pairwise (· < ·) ∧ ListsSector n N kets := by
  have hpre : [HVal.tuple [.int n, .int N]].mapM preprocess = .ok [(List.range n, HNum.int N)] := by
    rw [mapM_ok_iff]
    exact .cons ((C17_standard_form _ _).mpr (.pairCount _ n (.int N) hn
      (by simp only [NumLe]; exact_mod_cast hN) (.inl rfl))) .nil
  have hrep : NoRepeats [(List.range n, HNum.int N)] := by
    intro s hs; simp only [List.mem_singleton] at hs; subst hs; exact List.nodup_range
  obtain ⟨kets, hk⟩ := C19_below_64_succeeds _ _ hpre hrep (by simp) (by simp) (by simp; omega) true
  have hasc := (C15_base_vectors_ascending _ _ kets hk _ hpre hrep).1
  refine ⟨kets, hk, hasc, hasc.imp fun h => Nat.ne_of_lt h, fun k => ?_⟩
  rw [C14_base_vectors_exact _ _ _ kets hk _ hpre hrep]
  unfold AllowedKet
  simp only [List.mem_singleton, exists_eq_left, forall_eq, HNum.int.injEq, List.mem_range]
  have hsub : (occ k ⊆ Finset.range n) ↔ ∀ i, k.testBit i = true → i < n := by
    constructor
    · intro h i hi
      exact Finset.mem_range.mp (h ((mem_occ _ _).mpr hi))
    · intro h i hi
      exact Finset.mem_range.mpr (h i ((mem_occ _ _).mp hi))
  rw [hsub]
  constructor
  · rintro ⟨h1, h2⟩
    have := h2 N rfl (by positivity)
    rw [occ_card_of_range h1] at this
    exact ⟨h1, by exact_mod_cast this⟩
  · rintro ⟨h1, h2⟩
    refine ⟨h1, ?_⟩
    rintro M rfl -
    rw [occ_card_of_range h1, h2]

theorem hop_single (i j p q : ℕ) :
    (create i * annihilate j) (ket {q}) {p} = if i = p ∧ j = q then 1 else 0 := by
  rw [Module.End.mul_apply, annihilate_ket]
  by_cases h : j = q
  · subst h
    simp only [Finset.mem_singleton, if_true, and_true]
    by_cases hi : i = p
    · subst hi
      simp [create_ket, jwSign, Finset.filter_singleton]
      simp [ket]
    · rw [if_neg hi]
      simp [create_ket, jwSign, Finset.filter_singleton]
      simp [ket, hi]
  · simp [h]

/-- **C98.** Take any list of terms `c_a^dagger c_b` over `n <= 64` states.  They can be represented on
`base_vectors((n, 1))`, giving the one-particle Hamiltonian `A1` (of size `n`), and on `base_vectors((n, N))` for every
`N <= n`, giving `A`.  If `A1` is Hermitian, or after adding the Hermitian conjugates to both, the eigenvalues of the
many-particle Hamiltonian are, with multiplicities, the sums of `N` different one-particle eigenvalues. -/
theorem C98_free_fermions (objs : List StateID) (s : ℤ) (table : IndexTable StateID)
    (hT : IndexTable.init objs s = .ok table) (n : ℕ) (hn : 0 < n) (h64 : n ≤ 64) (ts : List ParticleTerm)
    (hq : ∀ t ∈ ts, IsQuadratic table n t) :
    ∃ B1 Ms1, baseVectors [.tuple [.int n, .int 1]] = .ok B1 ∧
      List.Forall₂ (fun t M => (ParticleTerm.matrixRepr t table B1).2 = .ok M) ts Ms1 ∧
      ∀ N ≤ n, ∃ B Ms, baseVectors [.tuple [.int n, .int N]] = .ok B ∧ B.length = n.choose N ∧
        List.Forall₂ (fun t M => (ParticleTerm.matrixRepr t table B).2 = .ok M) ts Ms ∧
        (∀ h1 : (sumMatrix n Ms1).IsHermitian, (sumMatrix B.length Ms).charpoly = sumsOf N h1.eigenvalues) ∧
        (∀ h1 : (sumMatrix n Ms1 + (sumMatrix n Ms1)ᴴ).IsHermitian,
          (sumMatrix B.length Ms + (sumMatrix B.length Ms)ᴴ).charpoly = sumsOf N h1.eigenvalues) := by
  obtain ⟨h, hh⟩ := quadratic_matrices hT h64 ts hq
  obtain ⟨B1, hB1, hasc1, hl1⟩ := sector_basis hn h64 (N := 1) hn
  obtain ⟨Ms1, hMs1, hsum1⟩ := hh 1 B1 hl1 hasc1
  have hB1' := C70_one_particle_basis n hn h64
  have he : B1 = (List.range n).map (fun (i : ℕ) => 2 ^ i) := by
    rw [show ((1 : ℕ) : ℤ) = 1 from rfl, hB1'] at hB1
    exact (Except.ok.inj hB1).symm
  have hlen : B1.length = n := by rw [he]; simp
  have hA1 : sumMatrix n Ms1 = h := by
    have h1 : ∀ (m : ℕ) (e : B1.length = m), sumMatrix m Ms1 =
        (opMat B1 (quadratic h)).submatrix (Fin.cast e.symm) (Fin.cast e.symm) := by
      intro m e
      subst e
      rw [hsum1]
      rfl
    rw [h1 n hlen]
    ext p q
    rw [Matrix.submatrix_apply, opMat_apply]
    have hocc : ∀ i : Fin n, occ B1[Fin.cast hlen.symm i] = {(i : ℕ)} := by
      intro i
      have : B1[Fin.cast hlen.symm i] = 2 ^ (i : ℕ) := by
        simp only [he, Fin.getElem_fin, Fin.val_cast, List.getElem_map, List.getElem_range]
      rw [this, occ_two_pow]
    rw [hocc, hocc, matrixElement]
    unfold quadratic
    simp only [LinearMap.sum_apply, Finsupp.finsetSum_apply, LinearMap.smul_apply, Finsupp.smul_apply, smul_eq_mul,
      hop_single]
    rw [Finset.sum_eq_single p, Finset.sum_eq_single q]
    · simp
    · intro j _ hj
      have : (j : ℕ) ≠ q := fun e => hj (Fin.ext e)
      simp [this]
    · intro h; exact absurd (Finset.mem_univ q) h
    · intro i _ hi
      have hip : (i : ℕ) ≠ p := fun e => hi (Fin.ext e)
      simp [hip]
    · intro h; exact absurd (Finset.mem_univ p) h
  refine ⟨B1, Ms1, hB1, hMs1, fun N hN => ?_⟩
  obtain ⟨B, hB, hasc, hl⟩ := sector_basis hn h64 hN
  obtain ⟨Ms, hMs, hsum⟩ := hh N B hl hasc
  refine ⟨B, Ms, hB, ?_, hMs, ?_, ?_⟩
  · rw [length_of_lists hl, Finset.card_powersetCard, Finset.card_univ, Fintype.card_fin]
  · rw [hA1, hsum]
    intro h1
    exact charpoly_hermitian hl h1
  · rw [hA1, hsum, opMat_quadratic_adj, ← map_add, ← quadratic_add]
    intro h1
    exact charpoly_hermitian hl h1

/-- Non-vacuity of C98: two hopping terms and a number operator on three sites. -/
example :
    ∃ (s0 s1 s2 : StateID) (table : IndexTable StateID),
      StateID.init defaultZoom [.int 0] = .ok s0 ∧ StateID.init defaultZoom [.int 1] = .ok s1 ∧
      StateID.init defaultZoom [.int 2] = .ok s2 ∧ IndexTable.init [s0, s1, s2] 0 = .ok table ∧
      ∀ t ∈ [(⟨[⟨.creation, s0⟩, ⟨.annihilation, s1⟩], Complex.I, .hopping⟩ : ParticleTerm),
        ⟨[⟨.creation, s1⟩, ⟨.annihilation, s2⟩], 2, .hopping⟩, ⟨[⟨.creation, s2⟩, ⟨.annihilation, s2⟩], 1, .number⟩],
        IsQuadratic table 3 t := by
  refine ⟨_, _, _, _, rfl, rfl, rfl, rfl, ?_⟩
  intro t ht
  simp only [List.mem_cons, List.not_mem_nil, or_false] at ht
  rcases ht with rfl | rfl | rfl
  · exact ⟨rfl, _, _, rfl, ⟨0, by norm_num, rfl⟩, 1, by norm_num, rfl⟩
  · exact ⟨rfl, _, _, rfl, ⟨1, by norm_num, rfl⟩, 2, by norm_num, rfl⟩
  · exact ⟨rfl, _, _, rfl, ⟨2, by norm_num, rfl⟩, 2, by norm_num, rfl⟩

end Verif
