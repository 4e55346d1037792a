import Verif.Proofs.SpinReorder
/-!
# C117: the order of the sites in the index table is a choice of basis
-/

namespace Verif
open Spec

theorem opMatrixRepr_ok {objs : List SiteID} {T : IndexTable SiteID} (hT : IndexTable.init objs 0 = .ok T)
    {s : SpinOperator} {M : SMat} (h : s.matrixRepr T = .ok M) :
    ∃ i, T.queryIndex s.siteId = .ok i ∧ Repr objs.length M (siteOp objs.length i.toNat (spinHalf s.otype)) := by
  unfold SpinOperator.matrixRepr at h
  rw [bind_ok_iff] at h
  obtain ⟨i, hi, h⟩ := h
  refine ⟨i, hi, ?_⟩
  have hr := siteIndex_range hT hi
  have hlen := (C01_indextable_bijection objs 0 T hT).2.2.1
  obtain ⟨M', hM', hR⟩ := (matrixFunction_single i T.len s.otype).1 hr.1 hr.2
  rw [h] at hM'
  cases hM'
  rw [hlen] at hR
  exact hR

theorem opMatrixRepr_of {objs : List SiteID} {T : IndexTable SiteID} (hT : IndexTable.init objs 0 = .ok T)
    {s : SpinOperator} {i : ℤ} (hi : T.queryIndex s.siteId = .ok i) :
    ∃ M, s.matrixRepr T = .ok M ∧ Repr objs.length M (siteOp objs.length i.toNat (spinHalf s.otype)) := by
  have hr := siteIndex_range hT hi
  have hlen := (C01_indextable_bijection objs 0 T hT).2.2.1
  obtain ⟨M, hM, hR⟩ := (matrixFunction_single i T.len s.otype).1 hr.1 hr.2
  rw [hlen] at hR
  refine ⟨M, ?_, hR⟩
  unfold SpinOperator.matrixRepr
  rw [hi]
  exact hM

theorem interMatrixRepr_of {objs : List SiteID} {T : IndexTable SiteID} (hT : IndexTable.init objs 0 = .ok T)
    {t : SpinInteraction} (hk : ∀ s ∈ t.operators, ∃ i, T.queryIndex s.siteId = .ok i) :
    ∃ M, (t.matrixRepr T).2 = .ok M ∧
      Repr objs.length M (t.coeff • opsProduct objs.length (t.operators.map (indexedSpin T))) := by
  have hlen := (C01_indextable_bijection objs 0 T hT).2.2.1
  have hpos : 0 < (T.len : ℤ) := by
    obtain ⟨x, xs, hobjs, -⟩ := init_ok hT
    rw [hlen, hobjs]
    simp
  have hidx : t.indexed T = .ok (t.operators.map (indexedSpin T)) := spinIndexed_ok_iff.mpr ⟨hk, rfl⟩
  obtain ⟨M, hM, hR⟩ := (interaction_matrixFunction (t.operators.map (indexedSpin T)) (T.len : ℤ) t.coeff hpos).1 (by
    intro p hp
    obtain ⟨s, hs, rfl⟩ := List.mem_map.mp hp
    obtain ⟨i, hi⟩ := hk s hs
    rw [indexedSpin_of_ok hi]
    exact siteIndex_range hT hi)
  rw [Int.toNat_natCast, hlen] at hR
  refine ⟨M, ?_, hR⟩
  unfold SpinInteraction.matrixRepr
  simp only [hidx, bind, Except.bind]
  exact hM

theorem interMatrixRepr_ok {objs : List SiteID} {T : IndexTable SiteID} (hT : IndexTable.init objs 0 = .ok T)
    {t : SpinInteraction} {M : SMat} (h : (t.matrixRepr T).2 = .ok M) :
    (∀ s ∈ t.operators, ∃ i, T.queryIndex s.siteId = .ok i) ∧
      Repr objs.length M (t.coeff • opsProduct objs.length (t.operators.map (indexedSpin T))) := by
  have hk : ∀ s ∈ t.operators, ∃ i, T.queryIndex s.siteId = .ok i := by
    unfold SpinInteraction.matrixRepr at h
    simp only [bind, Except.bind] at h
    cases hx : t.indexed T with
    | error e => rw [hx] at h; cases h
    | ok ops => exact (spinIndexed_ok_iff.1 hx).1
  obtain ⟨M', hM', hR⟩ := interMatrixRepr_of hT hk
  rw [h] at hM'
  cases hM'
  exact ⟨hk, hR⟩

/-- `M'` is `M` with rows and columns permuted by `f`. -/
def PermutedBy {d : ℕ} (f : Equiv.Perm (Fin d)) (M M' : SMat) : Prop :=
  M.dim = d ∧ M'.dim = d ∧ ∀ r c : Fin d, M'.get (f r) (f c) = M.get r c

/-- `k'` is `k` with entries permuted by `f`. -/
def KetPermutedBy {d : ℕ} (f : Equiv.Perm (Fin d)) (k k' : Ket) : Prop :=
  k.dim = d ∧ k'.dim = d ∧ ∀ r : Fin d, k'.get (f r) = k.get r

/-- **C117** (matrices and averages).  Build two index tables from the same sites in different orders.  There is one
permutation `f` of the basis states, the one that carries the spin of every site along, such that the matrix of every
spin operator and of every interaction in the second table is its matrix in the first one with rows and columns permuted
by `f`, and exists if that one does; and both functions of `averages.py` return the same numbers for a permuted ket. -/
theorem C117_reordering (objs objs' : List SiteID) (hp : objs.Perm objs') (T T' : IndexTable SiteID)
    (hT : IndexTable.init objs 0 = .ok T) (hT' : IndexTable.init objs' 0 = .ok T') :
    ∃ f : Equiv.Perm (Fin (2 ^ objs.length)),
      (∀ a i i', T.queryIndex a = .ok i → T'.queryIndex a = .ok i' → ∀ r, digit (f r) i'.toNat = digit r i.toNat) ∧
      (∀ (s : SpinOperator) M, s.matrixRepr T = .ok M → ∃ M', s.matrixRepr T' = .ok M' ∧ PermutedBy f M M') ∧
      (∀ (t : SpinInteraction) M, (t.matrixRepr T).2 = .ok M → ∃ M', (t.matrixRepr T').2 = .ok M' ∧
        PermutedBy f M M') ∧
      ∀ k k', KetPermutedBy f k k' →
        totalSpinAverages objs.length k' = totalSpinAverages objs.length k ∧
        ∀ M M', PermutedBy f M M' → quantumAverages k' M' = quantumAverages k M := by
  obtain ⟨σ, hσ, hn, hq⟩ := exists_siteRelabelling hp hT hT'
  have hlen : objs'.length = objs.length := hp.length_eq.symm
  have hpos : 1 ≤ objs.length := by
    obtain ⟨x, xs, hobjs, -⟩ := init_ok hT
    rw [hobjs]
    simp
  have hperm : ∀ {M M' : SMat} {X X' : Matrix (Fin (2 ^ objs.length)) (Fin (2 ^ objs.length)) ℂ},
      Repr objs.length M X → Repr objs.length M' X' → X'.submatrix (relPerm hσ hn) (relPerm hσ hn) = X →
      PermutedBy (relPerm hσ hn) M M' := by
    intro M M' X X' h h' he
    refine ⟨h.1, h'.1, fun r c => ?_⟩
    have e1 : M'.get (relPerm hσ hn r) (relPerm hσ hn c) = X' (relPerm hσ hn r) (relPerm hσ hn c) := by
      rw [← h'.2]
      rfl
    have e2 : M.get r c = X r c := by
      rw [← h.2]
      rfl
    rw [e1, e2, ← he]
    rfl
  refine ⟨relPerm hσ hn, ?_, ?_, ?_, ?_⟩
  · intro a i i' hi hi' r
    rw [hq a i hi] at hi'
    cases hi'
    rw [Int.toNat_natCast, relPerm_val, digit_relKet hσ]
  · intro s M hM
    obtain ⟨i, hi, hR⟩ := opMatrixRepr_ok hT hM
    obtain ⟨M', hM', hR'⟩ := opMatrixRepr_of hT' (hq _ _ hi)
    rw [hlen, Int.toNat_natCast] at hR'
    exact ⟨M', hM', hperm hR hR' (siteOp_rel hσ hn i.toNat _)⟩
  · intro t M hM
    obtain ⟨hk, hR⟩ := interMatrixRepr_ok hT hM
    obtain ⟨M', hM', hR'⟩ := interMatrixRepr_of hT' (t := t) fun s hs => by
      obtain ⟨i, hi⟩ := hk s hs
      exact ⟨_, hq _ _ hi⟩
    rw [hlen] at hR'
    refine ⟨M', hM', hperm hR hR' ?_⟩
    have hmap : t.operators.map (indexedSpin T') =
        (t.operators.map (indexedSpin T)).map fun p => ((σ p.1.toNat : ℤ), p.2) := by
      rw [List.map_map]
      refine List.map_congr_left fun s hs => ?_
      obtain ⟨i, hi⟩ := hk s hs
      rw [indexedSpin_of_ok (hq _ _ hi), Function.comp_apply, indexedSpin_of_ok hi]
    rw [Matrix.submatrix_smul, Pi.smul_apply, Pi.smul_apply, hmap, opsProduct_rel]
  · intro k k' hk
    obtain ⟨h1, h2, h3⟩ := hk
    have hv : k.toVec (2 ^ objs.length) = k'.toVec (2 ^ objs.length) ∘ relPerm hσ hn := by
      funext r
      exact (h3 r).symm
    constructor
    · rw [averages_eq objs.length (by exact_mod_cast hpos) k h1, averages_eq objs.length (by exact_mod_cast hpos) k' h2]
      have hs : ∀ M : Matrix (Fin (2 ^ objs.length)) (Fin (2 ^ objs.length)) ℂ,
          M.submatrix (relPerm hσ hn) (relPerm hσ hn) = M →
          expectation M (k'.toVec (2 ^ objs.length)) = expectation M (k.toVec (2 ^ objs.length)) := by
        intro M hM
        rw [expectation_rel (relPerm hσ hn) M, hM, hv]
      have hsq : ∀ o, (totalSpin objs.length o * totalSpin objs.length o).submatrix (relPerm hσ hn) (relPerm hσ hn) =
          totalSpin objs.length o * totalSpin objs.length o := by
        intro o
        rw [← Matrix.submatrix_mul_equiv _ _ _ (relPerm hσ hn) _, totalSpin_rel hσ hn]
      refine congrArg Except.ok ?_
      refine Prod.ext (hs _ ?_) (Prod.ext (hs _ (totalSpin_rel hσ hn _)) (Prod.ext (hs _ (totalSpin_rel hσ hn _))
        (hs _ (totalSpin_rel hσ hn _))))
      change ((_ + _ + _ : Matrix (Fin (2 ^ objs.length)) (Fin (2 ^ objs.length)) ℂ)).submatrix _ _ = _
      rw [Matrix.submatrix_add, Matrix.submatrix_add]
      simp only [Pi.add_apply]
      rw [hsq, hsq, hsq]
    · rintro M M' ⟨d1, d2, d3⟩
      rw [(C38_quantum_averages k M).1 (d1.trans h1.symm), (C38_quantum_averages k' M').1 (d2.trans h2.symm)]
      congr 1
      rw [h1, h2, expectation_rel (relPerm hσ hn), hv]
      congr 1
      ext r c
      exact d3 r c

/-- The matrix of a Hamiltonian given as a list of interactions: the sum of their matrices. -/
noncomputable def spinSum (d : ℕ) (Ms : List SMat) : Matrix (Fin d) (Fin d) ℂ := (Ms.map fun M => M.toMatrix d).sum

/-- **C117** (spectrum).  A spin Hamiltonian given as a list of interactions has the same characteristic polynomial (so
the same eigenvalues with the same multiplicities) whatever the order of the sites in the table. -/
theorem C117_spectrum (objs objs' : List SiteID) (hp : objs.Perm objs') (T T' : IndexTable SiteID)
    (hT : IndexTable.init objs 0 = .ok T) (hT' : IndexTable.init objs' 0 = .ok T') (ts : List SpinInteraction)
    (Ms Ms' : List SMat) (hM : List.Forall₂ (fun t M => (SpinInteraction.matrixRepr t T).2 = .ok M) ts Ms)
    (hM' : List.Forall₂ (fun t M => (SpinInteraction.matrixRepr t T').2 = .ok M) ts Ms') :
    (spinSum (2 ^ objs.length) Ms').charpoly = (spinSum (2 ^ objs.length) Ms).charpoly := by
  obtain ⟨f, -, -, ht, -⟩ := C117_reordering objs objs' hp T T' hT hT'
  have hsum : (spinSum (2 ^ objs.length) Ms').submatrix f f = spinSum (2 ^ objs.length) Ms := by
    ext r c
    rw [Matrix.submatrix_apply]
    clear hT hT'
    induction ts generalizing Ms Ms' with
    | nil => cases hM; cases hM'; simp [spinSum]
    | cons t ts ih =>
      cases hM with
      | cons h1 h2 =>
        cases hM' with
        | cons h1' h2' =>
          rename_i M Ms M' Ms'
          have a := ih Ms Ms' h2 h2'
          obtain ⟨M'', e1, -, -, e2⟩ := ht t M h1
          rw [h1'] at e1
          cases e1
          simp only [spinSum, List.map_cons, List.sum_cons, Matrix.add_apply] at a ⊢
          rw [a]
          congr 1
          exact e2 r c
  have e2 : (spinSum (2 ^ objs.length) Ms').submatrix f f =
      Matrix.reindex f.symm f.symm (spinSum (2 ^ objs.length) Ms') := by simp [Matrix.reindex_apply]
  rw [← hsum, e2, Matrix.charpoly_reindex]

/-- Two sites in both orders: `S_0^p` raises the spin of digit 0 in the first table and of digit 1 in the second. -/
example : ∃ (a b : SiteID) (T T' : IndexTable SiteID) (M M' : SMat),
    SiteID.init defaultZoom [.int 0] = .ok a ∧ SiteID.init defaultZoom [.int 1] = .ok b ∧
    [a, b].Perm [b, a] ∧ IndexTable.init [a, b] 0 = .ok T ∧ IndexTable.init [b, a] 0 = .ok T' ∧
    (⟨.p, a⟩ : SpinOperator).matrixRepr T = .ok M ∧ (⟨.p, a⟩ : SpinOperator).matrixRepr T' = .ok M' ∧
    M.get 0 1 = 1 ∧ M.get 0 2 = 0 ∧ M'.get 0 2 = 1 ∧ M'.get 0 1 = 0 := by
  refine ⟨_, _, _, _, _, _, rfl, rfl, List.Perm.swap _ _ _, rfl, rfl, rfl, rfl, ?_, ?_, ?_, ?_⟩ <;>
    norm_num [SMat.kron, SMat.identity, spinMatrix, Nat.shiftLeft_eq]

end Verif
