import Verif.Proofs.Kernels
/-!
# C20-C26: `matrix_function`

`matrix_function(term, right, left_bases=left, coeff=c, special_tag=tag)`: `left = none` means
`left_bases=None`, so the left basis is `left.getD right`.
-/

namespace Verif
open Spec

/-- A `csr_matrix` as a mathematical matrix. -/
noncomputable def Csr.toMatrix (M : Csr) (m n : ℕ) : Matrix (Fin m) (Fin n) ℂ :=
  Matrix.of fun r c => M.get r c

/-- **C20.** When `matrix_function` (general tag) returns, it has shape `(len(left), len(right))` and
its `(r, j)` entry is `c * <left[r]| product of the term's operators |right[j]>` in fermionic Fock
space with the Jordan-Wigner sign. -/
theorem C20_matrix_elements (term : List (ℤ × Otype)) (right : List ℕ) (left : Option (List ℕ))
    (c : ℂ) (M : Csr) (h : matrixFunctionCsr term right left c .general = .ok M)
    (hL : (left.getD right).Nodup) :
    M.nrow = (left.getD right).length ∧ M.ncol = right.length ∧
    ∀ (r : ℕ) (hr : r < (left.getD right).length) (j : ℕ) (hj : j < right.length),
      M.get r j =
        c * matrixElement (termOperator term) (occ (left.getD right)[r]) (occ right[j]) := by
  obtain ⟨data, hd, hb, h1, h2, -, -⟩ := csr_ok_iff.mp h
  exact ⟨h1, h2, fun r hr j hj => general_csr_get h hL r j hr hj⟩

/-- **C25** (general kernel).  On an ascending left basis `matrix_function` raises KeyError exactly
when the operator maps some right-basis ket to something with a component outside the left basis;
otherwise (unless the left basis is empty and the right is not) it returns. -/
theorem C25_keyerror_iff (term : List (ℤ × Otype)) (right : List ℕ) (left : Option (List ℕ))
    (c : ℂ) (hne : term ≠ []) (hidx : ∀ p ∈ term, 0 ≤ p.1 ∧ p.1 < 64)
    (hs : (left.getD right).Pairwise (· < ·)) :
    (matrixFunctionCsr term right left c .general = .error .keyError ↔
      ∃ k ∈ right, ∃ S : Finset ℕ, matrixElement (termOperator term) S (occ k) ≠ 0 ∧
        ∀ l ∈ left.getD right, S ≠ occ l) ∧
    ((right ≠ [] → left.getD right ≠ []) →
      (∃ M, matrixFunctionCsr term right left c .general = .ok M) ∨
      matrixFunctionCsr term right left c .general = .error .keyError) := by
  have hrows := termArray_of_valid hne hidx
  have hdata : matrixData term right left .general =
      coreGeneral ((natTerm term).map mkRow) right (left.getD right) := by
    unfold matrixData
    rw [hrows]
    rfl
  constructor
  · rw [csr_error_iff, hdata]
    simp only [reduceCtorEq, false_and, and_false, exists_false, or_false]
    rw [coreGeneral_error_iff hs]
    simp only [true_and, escape_iff]
    rfl
  · intro hne'
    by_cases hall : ∀ k ∈ right, ∀ k' s, image term k = some (k', s) → k' ∈ left.getD right
    · exact .inl (general_csr_of c ⟨hne, hidx⟩ hs hne' hall)
    · right
      rw [csr_error_iff, hdata]
      left
      rw [coreGeneral_error_iff hs]
      push Not at hall
      obtain ⟨k, hk, k', s, h1, h2⟩ := hall
      exact ⟨rfl, k, hk, k', s, h1, h2⟩

/-- Non-vacuity of C20/C25: `c_0^dagger c_1` on the one-particle basis `{01, 10}` exists, and raises
KeyError when the left basis lacks the image. -/
example :
    (∃ M, matrixFunctionCsr [(0, .creation), (1, .annihilation)] [1, 2] none 3 .general = .ok M ∧
      M.get 0 1 = 3) ∧
    matrixFunctionCsr [(0, .creation), (1, .annihilation)] [1, 2] (some [2]) 3 .general =
      .error .keyError := by
  constructor
  · have hd : matrixData [(0, .creation), (1, .annihilation)] [1, 2] none .general =
        .ok [(0, 0, 0), (0, 1, 1)] := rfl
    obtain ⟨M, hM, hget⟩ := csr_of_data (c := 3) hd (by simp)
    refine ⟨M, hM, ?_⟩
    rw [hget]
    norm_num
  · rw [(C25_keyerror_iff _ _ _ _ (by simp) (by simp) (by simp)).1]
    refine ⟨2, by simp, ?_⟩
    rw [escape_iff]
    exact ⟨1, false, by decide, by decide⟩

/-- **C23** (hopping).  For `c_i^dagger c_j` with `i != j` the hopping kernel and the general kernel
return the same thing (the same matrix or the same exception) for all bases. -/
theorem C23_hopping_kernel (i j : ℤ) (hij : i ≠ j) (right : List ℕ) (left : Option (List ℕ))
    (c : ℂ) :
    matrixFunctionCsr [(i, .creation), (j, .annihilation)] right left c .hopping =
      matrixFunctionCsr [(i, .creation), (j, .annihilation)] right left c .general := by
  have : matrixData [(i, .creation), (j, .annihilation)] right left .hopping =
      matrixData [(i, .creation), (j, .annihilation)] right left .general := by
    unfold matrixData
    cases hr : termArray [(i, .creation), (j, .annihilation)] with
    | error e => rfl
    | ok rows =>
      obtain ⟨h1, -, h3⟩ := termArray_ok hr
      have hi := h3 (i, .creation) (by simp)
      have hj := h3 (j, .annihilation) (by simp)
      simp only at hi hj
      subst h1
      exact coreHopping_eq i.toNat j.toNat (by omega) right _
  unfold matrixFunctionCsr
  rw [this]

/-- **C23** (number, Coulomb), partial: on one ascending basis used on both sides the number and
Coulomb kernels agree with the general kernel.  Missing: the property's "for every choice of left
bases" is false of the code for these two kernels, see `C23_diagonal_kernels_ignore_left_bases`. -/
theorem C23_diagonal_kernels_partial (i j : ℤ) (right : List ℕ) (hs : right.Pairwise (· < ·))
    (c : ℂ) :
    matrixFunctionCsr [(i, .creation), (i, .annihilation)] right none c .number =
      matrixFunctionCsr [(i, .creation), (i, .annihilation)] right none c .general ∧
    matrixFunctionCsr [(i, .creation), (i, .annihilation), (j, .creation), (j, .annihilation)]
        right none c .coulomb =
      matrixFunctionCsr [(i, .creation), (i, .annihilation), (j, .creation), (j, .annihilation)]
        right none c .general := by
  have h1 : matrixData [(i, .creation), (i, .annihilation)] right none .number =
      matrixData [(i, .creation), (i, .annihilation)] right none .general := by
    unfold matrixData
    cases hr : termArray [(i, .creation), (i, .annihilation)] with
    | error e => rfl
    | ok rows =>
      obtain ⟨h1, -, h3⟩ := termArray_ok hr
      subst h1
      exact coreNumber_eq i.toNat right hs
  have h2 : matrixData [(i, .creation), (i, .annihilation), (j, .creation), (j, .annihilation)]
        right none .coulomb =
      matrixData [(i, .creation), (i, .annihilation), (j, .creation), (j, .annihilation)]
        right none .general := by
    unfold matrixData
    cases hr : termArray [(i, .creation), (i, .annihilation), (j, .creation), (j, .annihilation)] with
    | error e => rfl
    | ok rows =>
      obtain ⟨h1, -, h3⟩ := termArray_ok hr
      subst h1
      exact coreCoulomb_eq i.toNat j.toNat right hs
  unfold matrixFunctionCsr
  rw [h1, h2]
  exact ⟨rfl, rfl⟩

/-- **C23** fails in full generality: with `left_bases` different from `right_bases` the number
kernel puts its entries at `(j, j)`, whatever ket `left_bases[j]` is.  Here `<0|n_0|1> = 0` but the
number-tagged matrix has entry 1 at row 0 (ket `0`), and misses row 1 (ket `1`). -/
theorem C23_diagonal_kernels_ignore_left_bases :
    ∃ G N : Csr,
      matrixFunctionCsr [(0, .creation), (0, .annihilation)] [1] (some [0, 1]) 1 .general = .ok G ∧
      matrixFunctionCsr [(0, .creation), (0, .annihilation)] [1] (some [0, 1]) 1 .number = .ok N ∧
      G.get 0 0 = 0 ∧ G.get 1 0 = 1 ∧ N.get 0 0 = 1 ∧ N.get 1 0 = 0 := by
  have hg : matrixData [(0, .creation), (0, .annihilation)] [1] (some [0, 1]) .general =
      .ok [(1, 0, 1)] := rfl
  have hn : matrixData [(0, .creation), (0, .annihilation)] [1] (some [0, 1]) .number =
      .ok [(0, 0, 1)] := rfl
  obtain ⟨G, hG, hGget⟩ := csr_of_data (c := 1) hg (by simp)
  obtain ⟨N, hN, hNget⟩ := csr_of_data (c := 1) hn (by simp)
  refine ⟨G, N, hG, hN, ?_, ?_, ?_, ?_⟩ <;> first | rw [hGget] | rw [hNget]
  all_goals norm_num

/-- **C25** (hopping kernel): the same characterisation. -/
theorem C25_keyerror_iff_hopping (i j : ℤ) (hij : i ≠ j) (right : List ℕ) (left : Option (List ℕ))
    (c : ℂ) (hi : 0 ≤ i ∧ i < 64) (hj : 0 ≤ j ∧ j < 64)
    (hs : (left.getD right).Pairwise (· < ·)) :
    matrixFunctionCsr [(i, .creation), (j, .annihilation)] right left c .hopping =
        .error .keyError ↔
      ∃ k ∈ right, ∃ S : Finset ℕ,
        matrixElement (create i.toNat * annihilate j.toNat) S (occ k) ≠ 0 ∧
        ∀ l ∈ left.getD right, S ≠ occ l := by
  rw [C23_hopping_kernel i j hij]
  have := (C25_keyerror_iff [(i, .creation), (j, .annihilation)] right left c (by simp)
    (by simp [hi, hj]) hs).1
  simpa [termOperator, fockProduct, fockOp] using this

/-- **C22.** If `t` is represented from basis `B` to `L` and `u` from `R` to `B`, the concatenated
term is represented from `R` to `L`, by the matrix product. -/
theorem C22_product_of_terms (t u : List (ℤ × Otype)) (R B L : List ℕ) (c d : ℂ) (Mt Mu : Csr)
    (hB : B.Pairwise (· < ·)) (hL : L.Pairwise (· < ·))
    (ht : matrixFunctionCsr t B (some L) c .general = .ok Mt)
    (hu : matrixFunctionCsr u R (some B) d .general = .ok Mu) :
    ∃ M, matrixFunctionCsr (t ++ u) R (some L) (c * d) .general = .ok M ∧
      M.toMatrix L.length R.length =
        Mt.toMatrix L.length B.length * Mu.toMatrix B.length R.length := by
  have hBn : B.Nodup := hB.imp (fun h => Nat.ne_of_lt h)
  have hLn : L.Nodup := hL.imp (fun h => Nat.ne_of_lt h)
  obtain ⟨hvt, hnt, hit⟩ := general_csr_image ht
  obtain ⟨hvu, hnu, hiu⟩ := general_csr_image hu
  simp only [Option.getD_some] at hnt hit hnu hiu
  have hop : termOperator (t ++ u) = termOperator t * termOperator u := by
    simp [termOperator, fockProduct]
  have hv : ValidTerm (t ++ u) := by
    refine ⟨by simp [hvt.1], ?_⟩
    intro p hp
    rcases List.mem_append.mp hp with hp | hp
    · exact hvt.2 p hp
    · exact hvu.2 p hp
  have hsupp : ∀ k ∈ R, ∀ U, termOperator u (ket (occ k)) U ≠ 0 → ∃ b ∈ B, U = occ b := by
    intro k hk U hU
    rw [termOperator_ket] at hU
    cases him : image u k with
    | none => rw [him] at hU; simp at hU
    | some p =>
      obtain ⟨k', s⟩ := p
      rw [him] at hU
      refine ⟨k', hiu k hk k' s him, ?_⟩
      by_contra hne
      simp only [ket, Finsupp.smul_apply, Finsupp.single_apply,
        if_neg (fun h : occ k' = U => hne h.symm)] at hU
      simp at hU
  have hin : ∀ k ∈ R, ∀ k' s, image (t ++ u) k = some (k', s) → k' ∈ L := by
    intro k hk k' s him
    have h1 := termOperator_ket (t ++ u) k
    rw [him, hop, Module.End.mul_apply, termOperator_ket u] at h1
    cases hiu' : image u k with
    | none =>
      rw [hiu'] at h1
      simp only [map_zero] at h1
      have := congrArg (fun v => v (occ k')) h1
      simp [ket] at this
      exact absurd this.symm (bsign_ne_zero s)
    | some p =>
      obtain ⟨b, s1⟩ := p
      rw [hiu'] at h1
      simp only [map_smul, termOperator_ket t] at h1
      cases hit' : image t b with
      | none =>
        rw [hit'] at h1
        have := congrArg (fun v => v (occ k')) h1
        simp [ket] at this
        exact absurd this.symm (bsign_ne_zero s)
      | some q =>
        obtain ⟨l, s2⟩ := q
        rw [hit'] at h1
        have hl := hit b (hiu k hk b s1 hiu') l s2 hit'
        have hval := congrArg (fun v => v (occ k')) h1
        by_cases hlk : occ l = occ k'
        · rw [← occ_injective hlk]; exact hl
        · simp [ket, hlk] at hval
          exact absurd hval.symm (bsign_ne_zero s)
  obtain ⟨M, hM⟩ := general_csr_of (left := some L) (c * d) hv hL
    (fun h => hnt (hnu h)) hin
  refine ⟨M, hM, ?_⟩
  ext l r
  simp only [Csr.toMatrix, Matrix.of_apply, Matrix.mul_apply]
  rw [general_csr_get hM hLn l r l.2 r.2, hop]
  have hexp := apply_eq_sum (termOperator t) (termOperator u (ket (occ R[r]))) B hBn
    (hsupp _ (List.getElem_mem _)) (occ L[l])
  unfold matrixElement
  simp only [Option.getD_some, Module.End.mul_apply]
  simp only [Fin.getElem_fin] at hexp
  rw [hexp, Finset.mul_sum]
  apply Finset.sum_congr rfl
  intro b _
  rw [general_csr_get ht hLn l b l.2 b.2, general_csr_get hu hBn b r b.2 r.2]
  unfold matrixElement
  simp only [Option.getD_some]
  ring

/-! ### the full Fock basis of `n` states -/

theorem occ_range_mem {n k : ℕ} (hk : k < 2 ^ n) : ∀ i ∈ occ k, i < n := by
  intro i hi
  rw [mem_occ] at hi
  by_contra hcon
  have h1 := Nat.ge_two_pow_of_testBit hi
  have h2 : 2 ^ n ≤ 2 ^ i := Nat.pow_le_pow_right (by norm_num) (by omega)
  omega

theorem image_full {n : ℕ} {term : List (ℤ × Otype)} (hidx : ∀ p ∈ term, 0 ≤ p.1 ∧ p.1 < n)
    {k k' : ℕ} {s : Bool} (hk : k < 2 ^ n) (h : image term k = some (k', s)) : k' < 2 ^ n := by
  unfold image at h
  have hgen : ∀ (l : List TermRow), (∀ r ∈ l, r.mask < 2 ^ n) → ∀ k s0, k < 2 ^ n →
      applyRows l k s0 = some (k', s) → k' < 2 ^ n := by
    intro l
    induction l with
    | nil => intro _ k s0 hk h; simp only [applyRows, Option.some.injEq, Prod.mk.injEq] at h; omega
    | cons r l ih =>
      intro hl k s0 hk h
      simp only [applyRows] at h
      split at h
      · exact ih (fun r hr => hl r (List.mem_cons_of_mem _ hr)) _ _
          (Nat.xor_lt_two_pow hk (hl r (by simp))) h
      · cases h
  refine hgen _ ?_ k false hk h
  intro r hr
  simp only [List.mem_reverse, natTerm, List.map_map, List.mem_map] at hr
  obtain ⟨p, hp, rfl⟩ := hr
  have := hidx p hp
  simp only [Function.comp_apply, mkRow, Nat.one_shiftLeft]
  exact Nat.pow_lt_pow_right (by norm_num) (by omega)

theorem range_ascending (N : ℕ) : (List.range N).Pairwise (· < ·) := List.pairwise_lt_range

theorem full_exists (n : ℕ) (hn : n ≤ 64) (term : List (ℤ × Otype)) (hne : term ≠ [])
    (hidx : ∀ p ∈ term, 0 ≤ p.1 ∧ p.1 < n) (c : ℂ) :
    ∃ M, matrixFunctionCsr term (List.range (2 ^ n)) none c .general = .ok M := by
  apply general_csr_of (left := none) c ⟨hne, fun p hp => ⟨(hidx p hp).1, by have := (hidx p hp).2; omega⟩⟩
    (range_ascending _) (fun h => h)
  intro k hk k' s h
  change k' ∈ List.range (2 ^ n)
  rw [List.mem_range]
  exact image_full hidx (List.mem_range.mp hk) h

/-- **C22** on the full Fock basis of `n` states: all the matrices exist, and the matrix of a product
term is the product of the matrices, coefficients included. -/
theorem C22_product_full_basis (n : ℕ) (hn : n ≤ 64) (t u : List (ℤ × Otype)) (c d : ℂ)
    (ht : t ≠ []) (hu : u ≠ []) (hti : ∀ p ∈ t, 0 ≤ p.1 ∧ p.1 < n)
    (hui : ∀ p ∈ u, 0 ≤ p.1 ∧ p.1 < n) :
    ∃ M Mt Mu, matrixFunctionCsr (t ++ u) (List.range (2 ^ n)) none (c * d) .general = .ok M ∧
      matrixFunctionCsr t (List.range (2 ^ n)) none c .general = .ok Mt ∧
      matrixFunctionCsr u (List.range (2 ^ n)) none d .general = .ok Mu ∧
      M.toMatrix (2 ^ n) (2 ^ n) = Mt.toMatrix (2 ^ n) (2 ^ n) * Mu.toMatrix (2 ^ n) (2 ^ n) := by
  obtain ⟨Mt, hMt⟩ := full_exists n hn t ht hti c
  obtain ⟨Mu, hMu⟩ := full_exists n hn u hu hui d
  obtain ⟨M, hM, heq⟩ := C22_product_of_terms t u (List.range (2 ^ n)) (List.range (2 ^ n))
    (List.range (2 ^ n)) c d Mt Mu (range_ascending _) (range_ascending _) hMt hMu
  refine ⟨M, Mt, Mu, hM, hMt, hMu, ?_⟩
  have hlen : (List.range (2 ^ n)).length = 2 ^ n := List.length_range
  rw [hlen] at heq
  exact heq

/-- **C21.** On the full Fock basis of `n` states the matrices of the creation and annihilation
operators exist and satisfy the canonical anticommutation relations. -/
theorem C21_anticommutation (n i j : ℕ) (hn : n ≤ 64) (hi : i < n) (hj : j < n) :
    ∃ A A' C C' : Csr,
      matrixFunctionCsr [((i : ℤ), .annihilation)] (List.range (2 ^ n)) none 1 .general = .ok A ∧
      matrixFunctionCsr [((j : ℤ), .annihilation)] (List.range (2 ^ n)) none 1 .general = .ok A' ∧
      matrixFunctionCsr [((i : ℤ), .creation)] (List.range (2 ^ n)) none 1 .general = .ok C ∧
      matrixFunctionCsr [((j : ℤ), .creation)] (List.range (2 ^ n)) none 1 .general = .ok C' ∧
      (let N := 2 ^ n
       A.toMatrix N N * C'.toMatrix N N + C'.toMatrix N N * A.toMatrix N N =
          (if i = j then 1 else 0) ∧
       A.toMatrix N N * A'.toMatrix N N + A'.toMatrix N N * A.toMatrix N N = 0 ∧
       C.toMatrix N N * C'.toMatrix N N + C'.toMatrix N N * C.toMatrix N N = 0) := by
  have hnd : ((none : Option (List ℕ)).getD (List.range (2 ^ n))).Nodup := List.nodup_range
  have idx : ∀ o : Otype, ∀ k < n, ∀ p ∈ [((k : ℤ), o)], 0 ≤ p.1 ∧ p.1 < n := by
    intro o k hk p hp
    simp only [List.mem_singleton] at hp
    subst hp
    constructor
    · simp
    · simpa using hk
  obtain ⟨A, hA⟩ := full_exists n hn _ (by simp) (idx .annihilation i hi) 1
  obtain ⟨A', hA'⟩ := full_exists n hn _ (by simp) (idx .annihilation j hj) 1
  obtain ⟨C, hC⟩ := full_exists n hn _ (by simp) (idx .creation i hi) 1
  obtain ⟨C', hC'⟩ := full_exists n hn _ (by simp) (idx .creation j hj) 1
  refine ⟨A, A', C, C', hA, hA', hC, hC', ?_⟩
  -- the product of two of these matrices, as Fock-space matrix elements
  have prod : ∀ (a b : ℕ) (o o' : Otype) (X Y : Csr), a < n → b < n →
      matrixFunctionCsr [((a : ℤ), o)] (List.range (2 ^ n)) none 1 .general = .ok X →
      matrixFunctionCsr [((b : ℤ), o')] (List.range (2 ^ n)) none 1 .general = .ok Y →
      ∀ r s : Fin (2 ^ n), (X.toMatrix (2 ^ n) (2 ^ n) * Y.toMatrix (2 ^ n) (2 ^ n)) r s =
        matrixElement (fockOp o a * fockOp o' b) (occ r) (occ s) := by
    intro a b o o' X Y ha hb hX hY r s
    obtain ⟨M, M1, M2, hM, hM1, hM2, heq⟩ := C22_product_full_basis n hn [((a : ℤ), o)]
      [((b : ℤ), o')] 1 1 (by simp) (by simp) (idx o a ha) (idx o' b hb)
    rw [hX] at hM1; cases hM1
    rw [hY] at hM2; cases hM2
    rw [← heq]
    simp only [Csr.toMatrix, Matrix.of_apply]
    rw [general_csr_get hM hnd r s (by simp) (by simp)]
    simp [termOperator, fockProduct]
  have add : ∀ (X Y Z : Module.End ℂ Fock) (S T : Finset ℕ), X + Y = Z →
      matrixElement X S T + matrixElement Y S T = matrixElement Z S T := by
    intro X Y Z S T h
    rw [← h]
    simp [matrixElement]
  refine ⟨?_, ?_, ?_⟩
  · ext r s
    rw [Matrix.add_apply, prod i j _ _ A C' hi hj hA hC', prod j i _ _ C' A hj hi hC' hA,
      fockOp, fockOp, add _ _ _ _ _ (annihilate_create i j)]
    by_cases hij : i = j
    · simp only [hij, if_true, matrixElement, Module.End.one_apply, ket, Finsupp.single_apply,
        Matrix.one_apply, occ_injective.eq_iff, Fin.val_inj]
      simp [eq_comm]
    · simp [hij, matrixElement]
  · ext r s
    rw [Matrix.add_apply, prod i j _ _ A A' hi hj hA hA', prod j i _ _ A' A hj hi hA' hA,
      fockOp, fockOp, add _ _ _ _ _ (annihilate_annihilate i j)]
    simp [matrixElement]
  · ext r s
    rw [Matrix.add_apply, prod i j _ _ C C' hi hj hC hC', prod j i _ _ C' C hj hi hC' hC,
      fockOp, fockOp, add _ _ _ _ _ (create_create i j)]
    simp [matrixElement]

/-- Non-vacuity of C21/C22: three states, two different operators. -/
example := C21_anticommutation 3 0 2 (by norm_num) (by norm_num) (by norm_num)
example := C22_product_full_basis 3 (by norm_num) [(2, .creation), (0, .annihilation)]
  [(1, .creation)] 2 Complex.I (by simp) (by simp) (by simp) (by simp)

/-- **C26.** `to_csr=False` and `to_csr=True` describe the same matrix: when the triplets are
`(entries, rows, cols)`, a returned csr matrix has as entries the sums of the matching triplets; the
columns are strictly increasing (at most one entry per column) and for a nonzero coefficient no
listed entry is zero.  If the triplet form raises, so does the sparse form, with the same error. -/
theorem C26_sparse_and_triplets (term : List (ℤ × Otype)) (right : List ℕ)
    (left : Option (List ℕ)) (c : ℂ) (tag : Classification) :
    (∀ es rs cs, matrixFunctionTriplets term right left c tag = .ok (es, rs, cs) →
      es.length = cs.length ∧ rs.length = cs.length ∧ cs.Pairwise (· < ·) ∧
      (c ≠ 0 → ∀ e ∈ es, e ≠ 0) ∧
      ∀ M, matrixFunctionCsr term right left c tag = .ok M →
        ∀ r j, M.get r j =
          (((es.zip (rs.zip cs)).filter (fun t => t.2.1 = r ∧ t.2.2 = j)).map Prod.fst).sum) ∧
    (∀ M, matrixFunctionCsr term right left c tag = .ok M →
      ∃ es rs cs, matrixFunctionTriplets term right left c tag = .ok (es, rs, cs)) ∧
    (∀ e, matrixFunctionTriplets term right left c tag = .error e →
      matrixFunctionCsr term right left c tag = .error e) := by
  -- every kernel stores at position `j` either zeros or an entry of column `j`
  have store : ∀ (L : List ℕ) (i k : ℕ) (s : Bool) (col : Col), storeCol L i k s = .ok col →
      col.2.1 = i := by
    intro L i k s col h
    obtain ⟨r, -, rfl⟩ := storeCol_ok h
    rfl
  have shape : ∀ data, matrixData term right left tag = .ok data →
      ∀ j (hj : j < data.length), data[j].2.2 ≠ 0 → data[j].2.1 = j := by
    intro data h
    unfold matrixData at h
    rw [bind_ok_iff] at h
    obtain ⟨rows, -, h⟩ := h
    cases tag with
    | general =>
      intro j hj hne
      have hl := mapM_ok_length h
      have := mapM_ok_getElem h j (by omega)
      simp only [List.getElem_zipIdx, Nat.zero_add] at this
      split at this
      · exact store _ _ _ _ _ this
      · rw [← Except.ok.inj this] at hne; simp at hne
    | hopping =>
      simp only [coreHopping] at h
      split at h
      · intro j hj hne
        have hl := mapM_ok_length h
        have := mapM_ok_getElem h j (by omega)
        simp only [List.getElem_zipIdx, Nat.zero_add] at this
        split at this
        · exact store _ _ _ _ _ this
        · rw [← Except.ok.inj this] at hne; simp at hne
      · cases h
    | number =>
      simp only [coreNumber] at h
      split at h
      · cases h
        intro j hj hne
        simp only [List.getElem_map, List.getElem_zipIdx, Nat.zero_add] at hne ⊢
        split at hne
        · rename_i hc; rw [if_pos hc]
        · simp at hne
      · cases h
    | coulomb =>
      simp only [coreCoulomb] at h
      split at h
      · cases h
        intro j hj hne
        simp only [List.getElem_map, List.getElem_zipIdx, Nat.zero_add] at hne ⊢
        split at hne
        · rename_i hc; rw [if_pos hc]
        · simp at hne
      · cases h
  refine ⟨?_, ?_, ?_⟩
  · intro es rs cs h
    unfold matrixFunctionTriplets at h
    rw [bind_ok_iff] at h
    obtain ⟨data, hd, h⟩ := h
    cases h
    have hsh := shape data hd
    refine ⟨by simp, by simp, ?_, ?_, ?_⟩
    · rw [List.pairwise_map]
      have hidx : data.Pairwise (fun a b => a.2.2 ≠ 0 → b.2.2 ≠ 0 → a.2.1 < b.2.1) := by
        rw [List.pairwise_iff_getElem]
        intro i j hi hj hij h1 h2
        rw [hsh i hi h1, hsh j hj h2]
        exact hij
      rw [List.pairwise_filter]
      exact hidx.imp (fun h ha hb => h (by simpa using ha) (by simpa using hb))
    · intro hc e he
      simp only [List.mem_map, List.mem_filter, decide_eq_true_eq] at he
      obtain ⟨d, ⟨-, hd⟩, rfl⟩ := he
      exact mul_ne_zero hc (by exact_mod_cast hd)
    · intro M hM r j
      obtain ⟨data', hd', -, -, -, hget, -⟩ := csr_ok_iff.mp hM
      rw [hd] at hd'; cases hd'
      rw [hget]
      clear hd hsh hM hget
      induction data with
      | nil => simp
      | cons d data ih =>
        simp only [List.map_cons, List.sum_cons, ih, List.filter_cons]
        by_cases h0 : d.2.2 = 0
        · simp [h0]
        · by_cases h2 : d.1 = r ∧ d.2.1 = j
          · simp [h0, h2]
          · simp [h0, h2]
  · intro M hM
    obtain ⟨data, hd, -⟩ := csr_ok_iff.mp hM
    unfold matrixFunctionTriplets
    rw [hd]
    exact ⟨_, _, _, rfl⟩
  · intro e he
    unfold matrixFunctionTriplets at he
    rw [bind_error_iff] at he
    rcases he with he | ⟨a, -, he⟩
    · rw [csr_error_iff]; exact .inl he
    · cases he

/-- Non-vacuity of C26. -/
example : matrixFunctionTriplets [(0, .creation), (1, .annihilation)] [1, 2, 3] none 3 .general =
    .ok ([3], [0], [1]) := by
  have hd : matrixData [(0, .creation), (1, .annihilation)] [1, 2, 3] none .general =
      .ok [(0, 0, 0), (0, 1, 1), (0, 0, 0)] := rfl
  unfold matrixFunctionTriplets
  rw [hd]
  simp [bind, Except.bind, pure, Except.pure]

end Verif
