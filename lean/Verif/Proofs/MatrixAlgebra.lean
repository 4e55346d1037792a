import Verif.Proofs.MatrixRepr
import Mathlib.LinearAlgebra.Matrix.ConjTranspose
/-! From kernels to matrices: existence, values, products, adjoints. -/

set_option linter.unusedSimpArgs false

namespace Verif
open Spec

open Classical in
theorem csr_ok_iff {term : List (ℤ × Otype)} {right : List ℕ} {left : Option (List ℕ)} {c : ℂ}
    {tag : Classification} {M : Csr} :
    matrixFunctionCsr term right left c tag = .ok M ↔
      ∃ data, matrixData term right left tag = .ok data ∧
        (∀ d ∈ data, d.1 < (left.getD right).length ∧ d.2.1 < right.length) ∧
        M.nrow = (left.getD right).length ∧ M.ncol = right.length ∧
        (∀ r j, M.get r j =
          (data.map (fun d => if d.1 = r ∧ d.2.1 = j then c * (d.2.2 : ℂ) else 0)).sum) ∧
        M.coo = (data.map (fun d => (d.1, d.2.1, c * (d.2.2 : ℂ)))).filter
          (fun e => e.2.2 ≠ 0) := by
  classical
  unfold matrixFunctionCsr
  rw [bind_ok_iff]
  constructor
  · rintro ⟨data, hd, h⟩
    refine ⟨data, hd, ?_⟩
    simp only at h
    split at h
    · cases h
    · rename_i hany
      cases h
      refine ⟨?_, rfl, rfl, ?_, rfl⟩
      · intro d hdm
        by_contra hcon
        apply hany
        rw [List.any_eq_true]
        exact ⟨d, hdm, by rw [decide_eq_true_eq]; omega⟩
      · intro r j
        exact get_of_data data c r j _ _
  · rintro ⟨data, hd, hb, hn, hm, -, hcoo⟩
    refine ⟨data, hd, ?_⟩
    simp only
    rw [if_neg]
    · obtain ⟨n, m, coo⟩ := M
      simp only at hn hm hcoo
      subst hn hm hcoo
      rfl
    · rw [List.any_eq_true]
      rintro ⟨d, hdm, h⟩
      rw [decide_eq_true_eq] at h
      have := hb d hdm
      omega

theorem csr_error_iff {term : List (ℤ × Otype)} {right : List ℕ} {left : Option (List ℕ)} {c : ℂ}
    {tag : Classification} {e : PyErr} :
    matrixFunctionCsr term right left c tag = .error e ↔
      matrixData term right left tag = .error e ∨
      ∃ data, matrixData term right left tag = .ok data ∧ e = .valueError ∧
        ∃ d ∈ data, (left.getD right).length ≤ d.1 ∨ right.length ≤ d.2.1 := by
  classical
  unfold matrixFunctionCsr
  rw [bind_error_iff]
  apply or_congr Iff.rfl
  apply exists_congr
  intro data
  apply and_congr Iff.rfl
  simp only
  constructor
  · intro h
    split at h
    · rename_i hany
      cases h
      refine ⟨rfl, ?_⟩
      rw [List.any_eq_true] at hany
      obtain ⟨d, hd, h⟩ := hany
      exact ⟨d, hd, by simpa using h⟩
    · cases h
  · rintro ⟨rfl, d, hd, h⟩
    have : (data.any fun d => decide ((left.getD right).length ≤ d.1 ∨ right.length ≤ d.2.1)) =
        true := by
      rw [List.any_eq_true]
      exact ⟨d, hd, by simpa using h⟩
    rw [if_pos this]

/-- run the csr construction on known kernel output -/
theorem csr_of_data {term : List (ℤ × Otype)} {right : List ℕ} {left : Option (List ℕ)} {c : ℂ}
    {tag : Classification} {data : List Col} (h : matrixData term right left tag = .ok data)
    (hb : ∀ d ∈ data, d.1 < (left.getD right).length ∧ d.2.1 < right.length) :
    ∃ M, matrixFunctionCsr term right left c tag = .ok M ∧
      ∀ r j, M.get r j =
        (data.map (fun d => if d.1 = r ∧ d.2.1 = j then c * (d.2.2 : ℂ) else 0)).sum := by
  classical
  refine ⟨⟨(left.getD right).length, right.length, _⟩, csr_ok_iff.mpr
    ⟨data, h, hb, rfl, rfl, ?_, rfl⟩, ?_⟩
  · intro r j; exact get_of_data data c r j _ _
  · intro r j; exact get_of_data data c r j _ _

/-- the terms `matrix_function` accepts -/
def ValidTerm (term : List (ℤ × Otype)) : Prop := term ≠ [] ∧ ∀ p ∈ term, 0 ≤ p.1 ∧ p.1 < 64

theorem validTerm_iff {term : List (ℤ × Otype)} :
    ValidTerm term ↔ ∃ rows, termArray term = .ok rows := by
  constructor
  · rintro ⟨h1, h2⟩; exact ⟨_, termArray_of_valid h1 h2⟩
  · rintro ⟨rows, h⟩; exact ⟨(termArray_ok h).2.1, (termArray_ok h).2.2⟩

/-- natural-number form of a term -/
def natTerm (term : List (ℤ × Otype)) : List (ℕ × Otype) := term.map (fun p => (p.1.toNat, p.2))

/-- the image of a ket under the term: `none` for zero -/
def image (term : List (ℤ × Otype)) (k : ℕ) : Option (ℕ × Bool) :=
  applyRows ((natTerm term).map mkRow).reverse k false

theorem termOperator_ket (term : List (ℤ × Otype)) (k : ℕ) :
    termOperator term (ket (occ k)) =
      match image term k with
      | some (k', s) => bsign s • ket (occ k')
      | none => 0 := by
  have := applyRows_spec (natTerm term).reverse k false
  rw [List.reverse_reverse, List.map_reverse] at this
  have hb : bsign false = 1 := rfl
  rw [hb, one_smul] at this
  exact this

theorem matrixElement_eq (term : List (ℤ × Otype)) (k l : ℕ) :
    matrixElement (termOperator term) (occ l) (occ k) =
      match image term k with
      | some (k', s) => if k' = l then bsign s else 0
      | none => 0 := matrixElement_of_apply (natTerm term) k l

theorem bsign_ne_zero (s : Bool) : bsign s ≠ 0 := by cases s <;> simp [bsign]

/-- the term maps some ket of `right` to something outside `left` -/
theorem escape_iff (term : List (ℤ × Otype)) (left : List ℕ) (k : ℕ) :
    (∃ S : Finset ℕ, matrixElement (termOperator term) S (occ k) ≠ 0 ∧ ∀ l ∈ left, S ≠ occ l) ↔
      ∃ k' s, image term k = some (k', s) ∧ k' ∉ left := by
  unfold matrixElement
  rw [termOperator_ket]
  cases image term k with
  | none => simp
  | some p =>
    obtain ⟨k', s⟩ := p
    simp only [ket, Finsupp.smul_apply, smul_eq_mul, Finsupp.single_apply, Option.some.injEq,
      Prod.mk.injEq]
    constructor
    · rintro ⟨S, h1, h2⟩
      refine ⟨k', s, ⟨rfl, rfl⟩, fun hk => ?_⟩
      have : occ k' = S := by
        by_contra hne
        simp [hne] at h1
      exact h2 k' hk this.symm
    · rintro ⟨_, _, ⟨rfl, rfl⟩, h2⟩
      refine ⟨occ k', by simp [bsign_ne_zero], ?_⟩
      intro l hl heq
      exact h2 (occ_injective heq ▸ hl)

theorem coreGeneral_total {rows : List TermRow} {right left : List ℕ}
    (h : ∀ k ∈ right, ∀ k' s, applyRows rows.reverse k false = some (k', s) → k' ∈ left)
    (hs : left.Pairwise (· < ·)) : ∃ data, coreGeneral rows right left = .ok data := by
  cases hc : coreGeneral rows right left with
  | ok d => exact ⟨d, rfl⟩
  | error e =>
    unfold coreGeneral at hc
    rw [mapM_error_iff] at hc
    obtain ⟨pre, ⟨k, i⟩, post, hl, -, he⟩ := hc
    have hk : k ∈ right := by
      have : (k, i) ∈ right.zipIdx := by rw [hl]; simp
      exact List.fst_mem_of_mem_zipIdx this
    simp only at he
    split at he
    · rename_i k' s heq
      have := h k hk k' s heq
      obtain ⟨r, hr⟩ := List.getElem?_of_mem this
      rw [storeCol_of_mem hs hr] at he
      cases he
    · cases he

theorem coreGeneral_error_iff {rows : List TermRow} {right left : List ℕ}
    (hs : left.Pairwise (· < ·)) {e : PyErr} :
    coreGeneral rows right left = .error e ↔ e = .keyError ∧
      ∃ k ∈ right, ∃ k' s, applyRows rows.reverse k false = some (k', s) ∧ k' ∉ left := by
  constructor
  · intro hc
    unfold coreGeneral at hc
    rw [mapM_error_iff] at hc
    obtain ⟨pre, ⟨k, i⟩, post, hl, -, he⟩ := hc
    have hk : k ∈ right := by
      have : (k, i) ∈ right.zipIdx := by rw [hl]; simp
      exact List.fst_mem_of_mem_zipIdx this
    simp only at he
    split at he
    · rename_i k' s heq
      refine ⟨storeCol_error he, k, hk, k', s, heq, fun hm => ?_⟩
      obtain ⟨r, hr⟩ := List.getElem?_of_mem hm
      rw [storeCol_of_mem hs hr] at he
      cases he
    · cases he
  · rintro ⟨rfl, k, hk, k', s, heq, hm⟩
    unfold coreGeneral
    rw [mapM_error_const]
    · obtain ⟨i, hi, rfl⟩ := List.mem_iff_getElem.mp hk
      refine ⟨(right[i], i), ?_, ?_⟩
      · rw [List.mem_zipIdx_iff_getElem?]; simp [hi]
      · simp only [heq]
        exact storeCol_error_of_not_mem hm
    · intro x _ e' he'
      split at he'
      · exact storeCol_error he'
      · cases he'

/-- the columns of the general kernel -/
theorem general_data {term : List (ℤ × Otype)} {right : List ℕ} {left : Option (List ℕ)}
    {data : List Col} (h : matrixData term right left .general = .ok data) :
    ValidTerm term ∧ data.length = right.length ∧
    ∀ j (hj : j < right.length) (hd : j < data.length),
      ColFor (left.getD right) j (image term right[j]) data[j] := by
  unfold matrixData at h
  rw [bind_ok_iff] at h
  obtain ⟨rows, hr, h⟩ := h
  simp only at h
  have hcore := coreGeneral_ok h
  have hrow := (termArray_ok hr).1
  refine ⟨validTerm_iff.mpr ⟨rows, hr⟩, hcore.1, ?_⟩
  intro j hj hd
  have := hcore.2 j hj hd
  rw [hrow] at this
  exact this

theorem general_data_of {term : List (ℤ × Otype)} {right : List ℕ} {left : Option (List ℕ)}
    (hv : ValidTerm term) (hs : (left.getD right).Pairwise (· < ·))
    (h : ∀ k ∈ right, ∀ k' s, image term k = some (k', s) → k' ∈ left.getD right) :
    ∃ data, matrixData term right left .general = .ok data := by
  unfold matrixData
  rw [termArray_of_valid hv.1 hv.2]
  exact coreGeneral_total h hs

theorem colFor_bounds {left : List ℕ} {n j : ℕ} (hj : j < n) {res : Option (ℕ × Bool)} {col : Col}
    (h : ColFor left j res col) (hl : res = none → left ≠ []) :
    col.1 < left.length ∧ col.2.1 < n := by
  unfold ColFor at h
  cases res with
  | none =>
    simp only at h
    have := List.length_pos_of_ne_nil (hl rfl)
    rw [h]
    exact ⟨this, by simp only; omega⟩
  | some p =>
    obtain ⟨r, hr, rfl⟩ := h
    exact ⟨(List.getElem?_eq_some_iff.mp hr).1, hj⟩

/-- existence of the matrix -/
theorem general_csr_of {term : List (ℤ × Otype)} {right : List ℕ} {left : Option (List ℕ)} (c : ℂ)
    (hv : ValidTerm term) (hs : (left.getD right).Pairwise (· < ·))
    (hne : right ≠ [] → left.getD right ≠ [])
    (h : ∀ k ∈ right, ∀ k' s, image term k = some (k', s) → k' ∈ left.getD right) :
    ∃ M, matrixFunctionCsr term right left c .general = .ok M := by
  obtain ⟨data, hd⟩ := general_data_of hv hs h
  have hspec := general_data hd
  cases hM : matrixFunctionCsr term right left c .general with
  | ok M => exact ⟨M, rfl⟩
  | error e =>
    exfalso
    rw [csr_error_iff] at hM
    rcases hM with hM | ⟨data', hd', -, d, hdm, hlt⟩
    · rw [hd] at hM; cases hM
    · rw [hd] at hd'; cases hd'
      obtain ⟨j, hj, rfl⟩ := List.mem_iff_getElem.mp hdm
      have hj' : j < right.length := by omega
      have := colFor_bounds (n := right.length) hj' (hspec.2.2 j hj' hj) (fun _ => hne (by
        rintro rfl; simp at hj'))
      omega

/-- values of the matrix -/
theorem general_csr_get {term : List (ℤ × Otype)} {right : List ℕ} {left : Option (List ℕ)} {c : ℂ}
    {M : Csr} (h : matrixFunctionCsr term right left c .general = .ok M)
    (hL : (left.getD right).Nodup) (r j : ℕ) (hr : r < (left.getD right).length)
    (hj : j < right.length) :
    M.get r j = c * matrixElement (termOperator term) (occ (left.getD right)[r]) (occ right[j]) := by
  obtain ⟨data, hd, hb, -, -, hget, -⟩ := csr_ok_iff.mp h
  obtain ⟨hv, hlen, hcol⟩ := general_data hd
  rw [hget, sum_data_eq right (left.getD right) (fun j => image term (right.getD j 0)) data c hlen
    ?_ hL r j hr hj, matrixElement_eq]
  · simp only [List.getD_eq_getElem?_getD, List.getElem?_eq_getElem hj, Option.getD_some]
    cases image term right[j] with
    | none => simp
    | some p =>
      obtain ⟨k, s⟩ := p
      simp only
      split <;> simp
  · intro j' hj'
    have hj'' : j' < right.length := by omega
    simp only [List.getD_eq_getElem?_getD, List.getElem?_eq_getElem hj'', Option.getD_some]
    exact hcol j' hj'' hj'

theorem general_csr_image {term : List (ℤ × Otype)} {right : List ℕ} {left : Option (List ℕ)} {c : ℂ}
    {M : Csr} (h : matrixFunctionCsr term right left c .general = .ok M) :
    ValidTerm term ∧ (right ≠ [] → left.getD right ≠ []) ∧
    ∀ k ∈ right, ∀ k' s, image term k = some (k', s) → k' ∈ left.getD right := by
  obtain ⟨data, hd, hb, -, -, -, -⟩ := csr_ok_iff.mp h
  obtain ⟨hv, hlen, hcol⟩ := general_data hd
  refine ⟨hv, ?_, ?_⟩
  · intro hne hnil
    have : 0 < data.length := hlen ▸ List.length_pos_of_ne_nil hne
    have := (hb data[0] (List.getElem_mem this)).1
    rw [hnil] at this
    simp at this
  · intro k hk k' s him
    obtain ⟨j, hj, rfl⟩ := List.mem_iff_getElem.mp hk
    have := hcol j hj (by omega)
    unfold ColFor at this
    rw [him] at this
    obtain ⟨r, hr, -⟩ := this
    exact List.mem_of_getElem? hr

/-! ### linear algebra in Fock space -/

theorem apply_eq_sum (A : Module.End ℂ Fock) (v : Fock) (B : List ℕ) (hB : B.Nodup)
    (hsupp : ∀ U, v U ≠ 0 → ∃ k ∈ B, U = occ k) (S : Finset ℕ) :
    A v S = ∑ b : Fin B.length, A (ket (occ B[b])) S * v (occ B[b]) := by
  have hv : v = ∑ b : Fin B.length, v (occ B[b]) • ket (occ B[b]) := by
    ext U
    rw [Finsupp.finsetSum_apply]
    simp only [ket, Finsupp.smul_apply, smul_eq_mul, Finsupp.single_apply]
    by_cases hU : v U = 0
    · rw [hU]
      symm
      apply Finset.sum_eq_zero
      intro b _
      by_cases h : occ B[b] = U
      · rw [h, hU]; simp
      · rw [if_neg h, mul_zero]
    · obtain ⟨k, hk, rfl⟩ := hsupp U hU
      obtain ⟨i, hi, rfl⟩ := List.mem_iff_getElem.mp hk
      rw [Finset.sum_eq_single (⟨i, hi⟩ : Fin B.length)]
      · simp
      · intro b _ hb
        have : occ B[b] ≠ occ B[i] := by
          intro h
          apply hb
          have := (List.Nodup.getElem_inj_iff hB).mp (occ_injective h)
          exact Fin.ext this
        simp only [Fin.getElem_fin] at this ⊢
        simp [this]
      · intro h; exact absurd (Finset.mem_univ _) h
  conv_lhs => rw [hv]
  rw [map_sum, Finsupp.finsetSum_apply]
  apply Finset.sum_congr rfl
  intro b _
  rw [map_smul, Finsupp.smul_apply, smul_eq_mul, mul_comm]

/-- `A` and `B` are adjoint to each other: `<S|A|T> = conj <T|B|S>`. -/
def IsAdj (A B : Module.End ℂ Fock) : Prop :=
  ∀ S T, matrixElement A S T = (starRingEnd ℂ) (matrixElement B T S)

theorem isAdj_one : IsAdj 1 1 := by
  intro S T
  simp only [matrixElement, Module.End.one_apply, ket, Finsupp.single_apply]
  by_cases h : T = S
  · simp [h]
  · rw [if_neg h, if_neg (fun h' : S = T => h h'.symm)]; simp

theorem apply_eq_finsum (A : Module.End ℂ Fock) (v : Fock) (s : Finset (Finset ℕ))
    (hs : v.support ⊆ s) (S : Finset ℕ) :
    A v S = ∑ U ∈ s, v U * A (ket U) S := by
  have hv : v = ∑ U ∈ s, v U • ket U := by
    ext W
    rw [Finsupp.finsetSum_apply]
    simp only [ket, Finsupp.smul_apply, smul_eq_mul, Finsupp.single_apply, mul_ite, mul_one,
      mul_zero, Finset.sum_ite_eq', Finset.sum_ite_eq]
    split
    · rfl
    · rename_i h
      by_contra hne
      exact h (hs (Finsupp.mem_support_iff.mpr hne))
  conv_lhs => rw [hv]
  rw [map_sum, Finsupp.finsetSum_apply]
  apply Finset.sum_congr rfl
  intro b _
  rw [map_smul, Finsupp.smul_apply, smul_eq_mul]

theorem IsAdj.mul {A B A' B' : Module.End ℂ Fock} (h : IsAdj A B) (h' : IsAdj A' B') :
    IsAdj (A * A') (B' * B) := by
  classical
  intro S T
  unfold matrixElement
  rw [Module.End.mul_apply, Module.End.mul_apply]
  set s := (A' (ket T)).support ∪ (B (ket S)).support with hs
  rw [apply_eq_finsum A (A' (ket T)) s Finset.subset_union_left,
    apply_eq_finsum B' (B (ket S)) s Finset.subset_union_right, map_sum]
  apply Finset.sum_congr rfl
  intro U _
  have h1 := h S U
  have h2 := h' U T
  unfold matrixElement at h1 h2
  rw [h1, h2, map_mul, mul_comm]

theorem isAdj_create_annihilate (i : ℕ) : IsAdj (create i) (annihilate i) := by
  intro S T
  unfold matrixElement
  rw [create_ket, annihilate_ket]
  by_cases hT : i ∈ T
  · simp only [hT, if_true, Finsupp.zero_apply]
    by_cases hS : i ∈ S
    · simp only [hS, if_true, ket, Finsupp.smul_apply, Finsupp.single_apply]
      rw [if_neg]
      · simp
      · rintro rfl; simp at hT
    · simp [hS]
  · simp only [hT, if_false, ket, Finsupp.smul_apply, Finsupp.single_apply, smul_eq_mul]
    by_cases hS : i ∈ S
    · simp only [hS, if_true, Finsupp.smul_apply, Finsupp.single_apply, smul_eq_mul]
      by_cases h : insert i T = S
      · subst h
        rw [Finset.erase_insert hT, jwSign_insert_self]
        simp [jwSign]
      · rw [if_neg h, if_neg]
        · simp
        · rintro rfl
          exact h (Finset.insert_erase hS)
    · rw [if_neg]
      · simp [hS]
      · rintro rfl; simp at hS

theorem IsAdj.symm {A B : Module.End ℂ Fock} (h : IsAdj A B) : IsAdj B A := by
  intro S T
  rw [h T S]
  simp

/-- the dagger of one operator -/
def Otype.flip : Otype → Otype
  | .creation => .annihilation
  | .annihilation => .creation

theorem isAdj_fockOp (o : Otype) (i : ℕ) : IsAdj (fockOp o i) (fockOp o.flip i) := by
  cases o
  · exact (isAdj_create_annihilate i).symm
  · exact isAdj_create_annihilate i

theorem isAdj_fockProduct (l : List (ℕ × Otype)) :
    IsAdj (fockProduct l) (fockProduct (l.reverse.map (fun p => (p.1, p.2.flip)))) := by
  induction l with
  | nil => simpa [fockProduct] using isAdj_one
  | cons p l ih =>
    have h1 : fockProduct (p :: l) = fockOp p.2 p.1 * fockProduct l := by simp [fockProduct]
    have h2 : fockProduct ((p :: l).reverse.map (fun p => (p.1, p.2.flip))) =
        fockProduct (l.reverse.map (fun p => (p.1, p.2.flip))) * fockOp p.2.flip p.1 := by
      simp [fockProduct]
    rw [h1, h2]
    exact (isAdj_fockOp _ _).mul ih

end Verif
