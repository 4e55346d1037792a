import Verif.Proofs.Reorder
import Verif.Props.Sectors
import Mathlib.LinearAlgebra.Matrix.Charpoly.Coeff
import Mathlib.LinearAlgebra.Matrix.Charpoly.Basic
/-!
# C71: the order of the states in the index table is a choice of basis
-/

namespace Verif
open Spec

/-- the relabelling between two tables of the same states -/
theorem exists_relabelling {objs objs' : List StateID} (hp : objs.Perm objs') {T T' : IndexTable StateID}
    (hT : IndexTable.init objs 0 = .ok T) (hT' : IndexTable.init objs' 0 = .ok T') :
    ∃ σ : ℕ → ℕ, Function.Injective σ ∧ (∀ k, k < objs.length ↔ σ k < objs.length) ∧
      ∀ a i, T.queryIndex a = .ok i → 0 ≤ i ∧ i < objs.length ∧
        T'.queryIndex a = .ok (σ i.toNat : ℤ) := by
  have hlen := hp.length_eq
  have C := C01_indextable_bijection objs 0 T hT
  have C' := C01_indextable_bijection objs' 0 T' hT'
  have hrange : ∀ (k : ℕ) (hk : k < objs.length), ∃ m, m < objs.length ∧ T'.queryIndex objs[k] = .ok (m : ℤ) := by
    intro k hk
    obtain ⟨m, hm, he⟩ := List.getElem_of_mem (hp.mem_iff.mp (List.getElem_mem hk))
    refine ⟨m, by omega, ?_⟩
    have := (C'.2.2.2.2.1 m objs[k] (by rw [List.getElem?_eq_getElem hm, he])).1
    simpa using this
  choose f hf hf' using hrange
  refine ⟨fun k => if h : k < objs.length then f k h else k, ?_, ?_, ?_⟩
  · intro a b hab
    by_cases ha : a < objs.length <;> by_cases hb : b < objs.length
    · simp only [ha, hb, dif_pos] at hab
      have h1 := hf' a ha
      have h2 := hf' b hb
      rw [← hab] at h2
      have h3 := queryIndex_congr T _ _ (queryIndex_inj hT' h1 h2)
      have h4 := (C.2.2.2.2.1 a _ (List.getElem?_eq_getElem ha)).1
      have h5 := (C.2.2.2.2.1 b _ (List.getElem?_eq_getElem hb)).1
      rw [h3, h5] at h4
      simpa using h4.symm
    · simp only [ha, hb, dif_pos, dif_neg, not_false_iff] at hab
      have := hf a ha; omega
    · simp only [ha, hb, dif_pos, dif_neg, not_false_iff] at hab
      have := hf b hb; omega
    · simpa [ha, hb] using hab
  · intro k
    by_cases h : k < objs.length
    · simp [h, hf k h]
    · simp [h]
  · intro a i hi
    obtain ⟨o, ho, hoa⟩ := C.2.2.2.2.2.2 a i hi
    have hio := C.2.2.2.2.2.1 i o ho
    have hmem : i ∈ T.indices := by
      unfold IndexTable.queryObject at ho
      simp only at ho
      split at ho
      · rename_i o' hd
        unfold IndexTable.indices
        have : ∀ d : List (ℤ × StateID), dictGet (· == ·) d i = some o' → i ∈ d.map Prod.fst := by
          intro d
          induction d with
          | nil => intro h; cases h
          | cons x d ih =>
            intro h
            unfold dictGet at h
            split at h
            · rename_i hx
              simp only [beq_iff_eq] at hx
              simp [hx]
            · exact List.mem_cons_of_mem _ (ih h)
        exact this _ hd
      · cases ho
    rw [C.1] at hmem
    simp only [List.mem_map, List.mem_range, zero_add] at hmem
    obtain ⟨k, hk, rfl⟩ := hmem
    refine ⟨by omega, by omega, ?_⟩
    simp only [Int.toNat_natCast, hk, dif_pos]
    have h4 := (C.2.2.2.2.1 k _ (List.getElem?_eq_getElem hk)).1
    rw [zero_add] at h4
    rw [queryIndex_congr T' a objs[k] (queryIndex_inj hT hi h4)]
    exact hf' k hk

theorem relKet_lt {σ : ℕ → ℕ} {n : ℕ} (hn : ∀ k, k < n ↔ σ k < n) {k : ℕ} (hk : k < 2 ^ n) :
    relKet σ k < 2 ^ n := by
  apply Nat.lt_pow_two_of_testBit
  intro i hi
  by_contra hcon
  have : i ∈ occ (relKet σ k) := by rw [mem_occ]; simpa using hcon
  rw [occ_relKet, Finset.mem_image] at this
  obtain ⟨j, hj, rfl⟩ := this
  have := (hn j).mp (occ_range_mem hk j hj)
  omega

/-- **C71** (matrices).  Build two index tables from the same states in different orders.  There is one
permutation `f` of the full Fock basis and one choice of signs such that, for *every* term, the matrix
in the second table is the matrix in the first one with rows and columns permuted by `f` and
multiplied by the signs; it exists whenever the first one does. -/
theorem C71_reordering (objs objs' : List StateID) (hp : objs.Perm objs') (T T' : IndexTable StateID)
    (hT : IndexTable.init objs 0 = .ok T) (hT' : IndexTable.init objs' 0 = .ok T')
    (h64 : objs.length ≤ 64) :
    ∃ (f : Equiv.Perm (Fin (2 ^ objs.length))) (sgn : Fin (2 ^ objs.length) → ℂ),
      (∀ r, sgn r = 1 ∨ sgn r = -1) ∧
      ∀ (t : ParticleTerm) (M : Csr), t.checkCompatibility = true →
        (t.matrixRepr T (List.range (2 ^ objs.length))).2 = .ok M →
        ∃ M', (t.matrixRepr T' (List.range (2 ^ objs.length))).2 = .ok M' ∧
          ∀ r j, M'.get (f r) (f j) = sgn r * sgn j * M.get r j := by
  obtain ⟨σ, hσ, hn, hq⟩ := exists_relabelling hp hT hT'
  have hinj : Function.Injective (fun k : Fin (2 ^ objs.length) =>
      (⟨relKet σ k, relKet_lt hn k.2⟩ : Fin (2 ^ objs.length))) := by
    intro a b hab
    simp only [Fin.mk.injEq] at hab
    have := congrArg occ hab
    rw [occ_relKet, occ_relKet] at this
    exact Fin.ext (occ_injective (Finset.image_injective hσ this))
  refine ⟨Equiv.ofBijective _ (Finite.injective_iff_bijective.mp hinj), fun r => relSign σ (occ r),
    fun r => relSign_cases σ _, ?_⟩
  intro t M hct hM
  have hasc := range_ascending (2 ^ objs.length)
  have hM0 := hM
  rw [C23_compatible_terms_partial objs 0 T hT t _ none hct (fun _ => ⟨rfl, hasc⟩), matrixRepr_none,
    bind_ok_iff] at hM
  obtain ⟨term, hterm, hM⟩ := hM
  obtain ⟨hst, rfl⟩ := indexed_ok_iff.mp hterm
  have hv := (general_csr_image hM).1
  have hst' : ∀ a ∈ t.aocs, ∃ i, T'.queryIndex a.state = .ok i := by
    intro a ha
    obtain ⟨i, hi⟩ := hst a ha
    exact ⟨_, (hq _ _ hi).2.2⟩
  have hterm' : ParticleTerm.indexed { t with classification := .general } T' =
      .ok (t.aocs.map (indexedAoC T')) := indexed_ok_iff.mpr ⟨hst', rfl⟩
  have hmap : t.aocs.map (indexedAoC T') =
      (t.aocs.map (indexedAoC T)).map (fun p => ((σ p.1.toNat : ℤ), p.2)) := by
    rw [List.map_map]
    apply List.map_congr_left
    intro a ha
    obtain ⟨i, hi⟩ := hst a ha
    simp [indexedAoC, hi, (hq _ _ hi).2.2, Except.toOption]
  obtain ⟨M', hM'⟩ := full_exists objs.length h64 (t.aocs.map (indexedAoC T'))
    (by
      have := hv.1
      simp only [ne_eq, List.map_eq_nil_iff] at this ⊢
      exact this)
    (by
      intro p hp
      obtain ⟨a, ha, rfl⟩ := List.mem_map.mp hp
      obtain ⟨i, hi⟩ := hst a ha
      obtain ⟨h1, h2, h3⟩ := hq _ _ hi
      simp only [indexedAoC, h3, Except.toOption, Option.getD_some]
      have := (hn i.toNat).mp (by omega)
      omega) t.coeff
  refine ⟨M', ?_, ?_⟩
  · rw [C23_compatible_terms_partial objs' 0 T' hT' t _ none hct (fun _ => ⟨rfl, hasc⟩), matrixRepr_none,
      bind_ok_iff]
    exact ⟨_, hterm', hM'⟩
  · intro r j
    have hnd : (List.range (2 ^ objs.length)).Nodup := List.nodup_range
    have g1 := general_csr_get hM hnd r j (by simp) (by simp)
    have g2 := general_csr_get hM' hnd (relKet σ r) (relKet σ j)
      (by simpa using relKet_lt hn r.2) (by simpa using relKet_lt hn j.2)
    simp only [Option.getD_none, List.getElem_range] at g1 g2
    change M'.get (relKet σ r) (relKet σ j) = _
    rw [g1, g2, occ_relKet, occ_relKet, hmap]
    have : termOperator ((t.aocs.map (indexedAoC T)).map (fun p => ((σ p.1.toNat : ℤ), p.2))) =
        fockProduct ((natTerm (t.aocs.map (indexedAoC T))).map (fun p => (σ p.1, p.2))) := by
      simp [termOperator, natTerm, Function.comp_def]
    rw [this, matrixElement_relabel hσ]
    change _ = _ * (_ * matrixElement (fockProduct (natTerm _)) _ _)
    ring

/-- **C71** (spectrum).  A Hamiltonian given as a list of terms has the same characteristic polynomial (so the
same eigenvalues with the same multiplicities) whatever the order of the states in the table. -/
theorem C71_spectrum (objs objs' : List StateID) (hp : objs.Perm objs') (T T' : IndexTable StateID)
    (hT : IndexTable.init objs 0 = .ok T) (hT' : IndexTable.init objs' 0 = .ok T')
    (h64 : objs.length ≤ 64) (ts : List ParticleTerm) (hct : ∀ t ∈ ts, t.checkCompatibility = true)
    (Ms Ms' : List Csr)
    (hM : List.Forall₂ (fun t M => (ParticleTerm.matrixRepr t T (List.range (2 ^ objs.length))).2 = .ok M) ts Ms)
    (hM' : List.Forall₂ (fun t M => (ParticleTerm.matrixRepr t T' (List.range (2 ^ objs.length))).2 = .ok M)
      ts Ms') :
    (sumMatrix (2 ^ objs.length) Ms').charpoly = (sumMatrix (2 ^ objs.length) Ms).charpoly := by
  obtain ⟨f, sgn, hs, hterm⟩ := C71_reordering objs objs' hp T T' hT hT' h64
  have hsum : ∀ r j, sumMatrix (2 ^ objs.length) Ms' (f r) (f j) =
      sgn r * sgn j * sumMatrix (2 ^ objs.length) Ms r j := by
    induction ts generalizing Ms Ms' with
    | nil => cases hM; cases hM'; simp [sumMatrix]
    | cons t ts ih =>
      cases hM with
      | cons h1 h2 =>
        cases hM' with
        | cons h1' h2' =>
          rename_i M Ms M' Ms'
          intro r j
          have a := ih (fun u hu => hct u (List.mem_cons_of_mem _ hu)) Ms Ms' h2 h2' r j
          obtain ⟨M'', e1, e2⟩ := hterm t M (hct t List.mem_cons_self) h1
          rw [h1'] at e1; cases e1
          have b := e2 r j
          simp only [sumMatrix, List.map_cons, List.sum_cons, Matrix.add_apply] at a ⊢
          rw [a, mul_add]
          congr 1
  set A := sumMatrix (2 ^ objs.length) Ms
  set A' := sumMatrix (2 ^ objs.length) Ms'
  have hsq : ∀ r, sgn r * sgn r = 1 := by
    intro r; rcases hs r with h | h <;> rw [h] <;> norm_num
  let u : (Matrix (Fin (2 ^ objs.length)) (Fin (2 ^ objs.length)) ℂ)ˣ :=
    ⟨Matrix.diagonal sgn, Matrix.diagonal sgn, by simp [hsq], by simp [hsq]⟩
  have e1 : A'.submatrix f f = u.val * A * u⁻¹.val := by
    ext r j
    change A' (f r) (f j) = (Matrix.diagonal sgn * A * Matrix.diagonal sgn) r j
    rw [hsum, Matrix.mul_diagonal, Matrix.diagonal_mul]
    ring
  have e2 : A'.submatrix f f = Matrix.reindex f.symm f.symm A' := by
    simp [Matrix.reindex_apply]
  rw [Matrix.coe_units_inv] at e1
  rw [← Matrix.charpoly_units_conj u A, ← e1, e2, Matrix.charpoly_reindex]

/-- Non-vacuity of C71: two states listed in both orders; the hopping term has its matrix element between the kets
`1` and `2` at (0b01, 0b10) in the first table and at (0b10, 0b01) in the second. -/
example :
    ∃ (s0 s1 : StateID) (T T' : IndexTable StateID) (t : ParticleTerm) (M M' : Csr),
      StateID.init defaultZoom [.int 0] = .ok s0 ∧ StateID.init defaultZoom [.int 1] = .ok s1 ∧
      [s0, s1].Perm [s1, s0] ∧ IndexTable.init [s0, s1] 0 = .ok T ∧ IndexTable.init [s1, s0] 0 = .ok T' ∧
      t = ⟨[⟨.creation, s0⟩, ⟨.annihilation, s1⟩], 2, .hopping⟩ ∧ t.checkCompatibility = true ∧
      (t.matrixRepr T (List.range (2 ^ [s0, s1].length))).2 = .ok M ∧
      (t.matrixRepr T' (List.range (2 ^ [s0, s1].length))).2 = .ok M' ∧
      M.get 1 2 = 2 ∧ M'.get 2 1 = 2 := by
  have h1 : matrixData [(0, .creation), (1, .annihilation)] (List.range 4) none .hopping =
      .ok [(0, 0, 0), (0, 0, 0), (1, 2, 1), (0, 0, 0)] := rfl
  have h2 : matrixData [(1, .creation), (0, .annihilation)] (List.range 4) none .hopping =
      .ok [(0, 0, 0), (2, 1, 1), (0, 0, 0), (0, 0, 0)] := rfl
  obtain ⟨M, hM, hMget⟩ := csr_of_data (c := 2) h1 (by simp [List.length_range])
  obtain ⟨M', hM', hMget'⟩ := csr_of_data (c := 2) h2 (by simp [List.length_range])
  refine ⟨_, _, _, _, _, M, M', rfl, rfl, List.Perm.swap _ _ _, rfl, rfl, rfl, rfl, hM, hM', ?_, ?_⟩
  · rw [hMget]; simp
  · rw [hMget']; simp

end Verif
