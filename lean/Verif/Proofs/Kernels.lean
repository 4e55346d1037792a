import Verif.Proofs.MatrixAlgebra
/-! The specialised kernels against the general one. -/

set_option linter.unusedSimpArgs false

namespace Verif
open Spec

theorem bsign_injective : Function.Injective bsign := by
  intro a b h
  cases a <;> cases b <;> simp [bsign] at h ⊢
  · norm_num [Complex.ext_iff] at h
  · norm_num [Complex.ext_iff] at h

theorem mask_ne (i : ℕ) : (1 <<< i : ℕ) ≠ 0 := by
  rw [Nat.one_shiftLeft]; exact (pow_pos (by norm_num) i).ne'

theorem and_mask_ne_zero (k i : ℕ) : k &&& (1 <<< i) ≠ 0 ↔ i ∈ occ k := by
  rw [ne_eq, and_mask_eq_zero, not_not]

/-- `c_i^dagger c_i` followed by further rows -/
theorem applyRows_number (i k : ℕ) (s : Bool) (rest : List TermRow) :
    applyRows (mkRow (i, .annihilation) :: mkRow (i, .creation) :: rest) k s =
      if i ∈ occ k then applyRows rest k s else none := by
  have hm : (mkRow (i, .annihilation)).mask = 1 <<< i := rfl
  have hm' : (mkRow (i, .creation)).mask = 1 <<< i := rfl
  have hc : (mkRow (i, .annihilation)).criterion = 1 <<< i := rfl
  have hc' : (mkRow (i, .creation)).criterion = 0 := rfl
  simp only [applyRows, hm, hm', hc, hc', and_mask_eq_mask, and_mask_eq_zero]
  by_cases h : i ∈ occ k
  · have h' : i ∉ occ (k ^^^ 1 <<< i) := by rw [occ_xor_erase k i h]; simp
    rw [if_pos h, if_pos h, if_pos h', Nat.xor_assoc, Nat.xor_self, Nat.xor_zero]
    congr 1
    apply bsign_injective
    change bsign (countSwap 0 i (k ^^^ 1 <<< i) (countSwap 0 i k s)) = _
    rw [bsign_countSwap_zero, bsign_countSwap_zero, occ_xor_erase k i h, jwSign_erase_self, mul_assoc,
      jwSign_sq, mul_one]
  · rw [if_neg h, if_neg h]

/-- `c_i^dagger c_j` -/
theorem applyRows_hopping (i j k : ℕ) (hij : i ≠ j) :
    applyRows [mkRow (j, .annihilation), mkRow (i, .creation)] k false =
      if i ∉ occ k ∧ j ∈ occ k then
        some ((k ^^^ (1 <<< j)) ^^^ (1 <<< i), countSwap (min i j + 1) (max i j) k false)
      else none := by
  have hm : (mkRow (j, .annihilation)).mask = 1 <<< j := rfl
  have hm' : (mkRow (i, .creation)).mask = 1 <<< i := rfl
  have hc : (mkRow (j, .annihilation)).criterion = 1 <<< j := rfl
  have hc' : (mkRow (i, .creation)).criterion = 0 := rfl
  have hi' : (mkRow (i, .creation)).index = i := rfl
  have hj' : (mkRow (j, .annihilation)).index = j := rfl
  simp only [applyRows, hm, hm', hc, hc', hi', hj', and_mask_eq_mask, and_mask_eq_zero]
  by_cases hj : j ∈ occ k
  · have hiff : i ∉ occ (k ^^^ 1 <<< j) ↔ i ∉ occ k := by
      rw [occ_xor_erase k j hj]; simp [hij]
    rw [if_pos hj]
    by_cases hi : i ∈ occ k
    · rw [if_neg (by rw [hiff]; simpa using hi), if_neg (by tauto)]
    · rw [if_pos (by rw [hiff]; exact hi), if_pos ⟨hi, hj⟩]
      congr 2
      apply bsign_injective
      rw [bsign_countSwap_zero, bsign_countSwap_zero, bsign_countSwap _ _ _ (by omega),
        occ_xor_erase k j hj, jwSign_erase i j _ hj]
      have hb : bsign false = 1 := rfl
      rw [hb, one_mul, one_mul]
      unfold jwSign
      rcases Nat.lt_or_gt_of_ne hij with h | h
      · rw [if_neg (by omega), one_mul]
        have : (occ k).filter (· < j) = (occ k).filter (· < i) ∪
            (occ k).filter (fun p => min i j + 1 ≤ p ∧ p < max i j) := by
          ext p
          simp only [Finset.mem_filter, Finset.mem_union]
          constructor
          · rintro ⟨h1, h2⟩
            have : p ≠ i := by rintro rfl; exact hi h1
            by_cases hp : p < i
            · exact .inl ⟨h1, hp⟩
            · exact .inr ⟨h1, by omega, by omega⟩
          · rintro (⟨h1, h2⟩ | ⟨h1, h2, h3⟩) <;> exact ⟨h1, by omega⟩
        rw [this, Finset.card_union_of_disjoint, pow_add]
        · rw [mul_right_comm, ← pow_add, ← two_mul, pow_mul]; simp
        · rw [Finset.disjoint_left]
          intro p h1 h2
          simp only [Finset.mem_filter] at h1 h2
          omega
      · rw [if_pos (by omega)]
        have : (occ k).filter (· < i) = insert j ((occ k).filter (· < j) ∪
            (occ k).filter (fun p => min i j + 1 ≤ p ∧ p < max i j)) := by
          ext p
          simp only [Finset.mem_filter, Finset.mem_union, Finset.mem_insert]
          constructor
          · rintro ⟨h1, h2⟩
            by_cases hp : p = j
            · exact .inl hp
            · by_cases hp' : p < j
              · exact .inr (.inl ⟨h1, hp'⟩)
              · exact .inr (.inr ⟨h1, by omega, by omega⟩)
          · rintro (rfl | ⟨h1, h2⟩ | ⟨h1, h2, h3⟩)
            · exact ⟨hj, h⟩
            · exact ⟨h1, by omega⟩
            · exact ⟨h1, by omega⟩
        rw [this, Finset.card_insert_of_notMem, Finset.card_union_of_disjoint, pow_succ, pow_add]
        · have h2 : ∀ a b : ℕ, ((-1 : ℂ)) ^ a * (-1 * ((-1) ^ a * (-1) ^ b * -1)) = (-1) ^ b := by
            intro a b
            have : ((-1 : ℂ)) ^ a * (-1) ^ a = 1 := by
              rw [← pow_add, ← two_mul, pow_mul]; simp
            linear_combination ((-1 : ℂ)) ^ b * this
          exact h2 _ _
        · rw [Finset.disjoint_left]
          intro p h1 h2
          simp only [Finset.mem_filter] at h1 h2
          omega
        · simp only [Finset.mem_union, Finset.mem_filter]
          omega
  · rw [if_neg hj, if_neg (by tauto)]

theorem coreHopping_eq (i j : ℕ) (hij : i ≠ j) (right left : List ℕ) :
    coreHopping [mkRow (i, .creation), mkRow (j, .annihilation)] right left =
      coreGeneral [mkRow (i, .creation), mkRow (j, .annihilation)] right left := by
  unfold coreHopping coreGeneral
  dsimp only
  congr 1
  funext p
  have : ([mkRow (i, .creation), mkRow (j, .annihilation)] : List TermRow).reverse =
      [mkRow (j, .annihilation), mkRow (i, .creation)] := rfl
  rw [this, applyRows_hopping i j p.1 hij]
  have hm : (mkRow (j, .annihilation)).mask = 1 <<< j := rfl
  have hm' : (mkRow (i, .creation)).mask = 1 <<< i := rfl
  simp only [List.foldl_nil, hm, hm', and_mask_eq_mask, and_mask_eq_zero]
  by_cases h : i ∉ occ p.1 ∧ j ∈ occ p.1
  · rw [if_pos h, if_pos h]; rfl
  · rw [if_neg h, if_neg h]

/-- a diagonal kernel and the general kernel on a sorted basis -/
theorem coreGeneral_diag (rows : List TermRow) (P : ℕ → Prop) [DecidablePred P] (right : List ℕ)
    (hs : right.Pairwise (· < ·))
    (h : ∀ k ∈ right, applyRows rows.reverse k false = if P k then some (k, false) else none) :
    coreGeneral rows right right =
      .ok (right.zipIdx.map fun p => if P p.1 then (p.2, p.2, 1) else (0, 0, 0)) := by
  unfold coreGeneral
  rw [mapM_ok_iff]
  apply forall₂_of_getElem (by simp)
  intro i hi
  simp only [List.length_zipIdx] at hi
  simp only [List.getElem_zipIdx, Nat.zero_add, List.getElem_map, h _ (List.getElem_mem hi)]
  by_cases hP : P right[i]
  · simp only [hP, if_true]
    rw [storeCol_of_mem hs (List.getElem?_eq_getElem hi)]
    rfl
  · simp only [hP, if_false]

theorem coreNumber_eq (i : ℕ) (right : List ℕ) (hs : right.Pairwise (· < ·)) :
    coreNumber [mkRow (i, .creation), mkRow (i, .annihilation)] right =
      coreGeneral [mkRow (i, .creation), mkRow (i, .annihilation)] right right := by
  rw [coreGeneral_diag _ (fun k => i ∈ occ k) right hs]
  · unfold coreNumber
    simp only [and_mask_ne_zero, show (mkRow (i, .creation)).mask = 1 <<< i from rfl]
  · intro k _
    change applyRows (mkRow (i, .annihilation) :: mkRow (i, .creation) :: []) k false = _
    rw [applyRows_number]
    rfl

theorem coreCoulomb_eq (i j : ℕ) (right : List ℕ) (hs : right.Pairwise (· < ·)) :
    coreCoulomb [mkRow (i, .creation), mkRow (i, .annihilation), mkRow (j, .creation),
        mkRow (j, .annihilation)] right =
      coreGeneral [mkRow (i, .creation), mkRow (i, .annihilation), mkRow (j, .creation),
        mkRow (j, .annihilation)] right right := by
  rw [coreGeneral_diag _ (fun k => i ∈ occ k ∧ j ∈ occ k) right hs]
  · unfold coreCoulomb
    simp only [and_mask_ne_zero, show (mkRow (i, .creation)).mask = 1 <<< i from rfl,
      show (mkRow (j, .creation)).mask = 1 <<< j from rfl]
  · intro k _
    change applyRows (mkRow (j, .annihilation) :: mkRow (j, .creation) ::
      mkRow (i, .annihilation) :: mkRow (i, .creation) :: []) k false = _
    rw [applyRows_number, applyRows_number]
    by_cases hi : i ∈ occ k <;> by_cases hj : j ∈ occ k <;> simp [hi, hj, applyRows]

/-- values of the diagonal kernels on any duplicate-free basis -/
theorem diag_get {right : List ℕ} (P : ℕ → Prop) [DecidablePred P] {c : ℂ} {M : Csr} {data : List Col}
    (hdata : data = right.zipIdx.map fun p => if P p.1 then (p.2, p.2, 1) else (0, 0, 0))
    (hget : ∀ r j, M.get r j =
          (data.map (fun d => if d.1 = r ∧ d.2.1 = j then c * (d.2.2 : ℂ) else 0)).sum)
    (hnd : right.Nodup) (r j : ℕ) (hr : r < right.length) (hj : j < right.length) :
    M.get r j = if r = j ∧ P right[j] then c else 0 := by
  rw [hget, sum_data_eq right right
    (fun j => if P (right.getD j 0) then some (right.getD j 0, false) else none) data c
    (by simp [hdata]) ?_ hnd r j hr hj]
  · simp only [List.getD_eq_getElem?_getD, List.getElem?_eq_getElem hj, Option.getD_some]
    by_cases hP : P right[j]
    · simp only [hP, if_true, and_true, (List.Nodup.getElem_inj_iff hnd), bsign]
      simp [eq_comm]
    · simp [hP]
  · intro j' hj'
    subst hdata
    have hj'' : j' < right.length := by simpa using hj'
    unfold ColFor
    simp only [List.getD_eq_getElem?_getD, List.getElem?_eq_getElem hj'', Option.getD_some,
      List.getElem_map, List.getElem_zipIdx, Nat.zero_add]
    by_cases hP : P right[j']
    · simp only [hP, if_true]
      exact ⟨j', List.getElem?_eq_getElem hj'', rfl⟩
    · simp only [hP, if_false]

end Verif
