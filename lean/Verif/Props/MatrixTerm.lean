import Verif.Proofs.MatrixTerm
import Verif.Props.Matrix
import Verif.Props.Normalize
import Mathlib.LinearAlgebra.Matrix.Hermitian
/-!
# C12, C22-C24, C27, C28: matrix representations of particle terms
-/

namespace Verif
open Spec

/-- **C12** (operators).  When `normalize(aocs)` returns `(norm, n)` and the states of `aocs` are in the
index table (with non-negative indices), the operator product of `aocs` on Fock space is `(-1)^n`
times that of `norm`. -/
theorem C12_normalize_preserves_operator (objs : List StateID) (s : ℤ) (table : IndexTable StateID)
    (hT : IndexTable.init objs s = .ok table) (aocs norm : List AoC) (n : ℕ)
    (h : normalize aocs = .ok (norm, n)) (c : ℂ) (cl : Classification) (term : List (ℤ × Otype))
    (hterm : ParticleTerm.indexed ⟨aocs, c, cl⟩ table = .ok term) (hpos : ∀ p ∈ term, 0 ≤ p.1) :
    ∃ term', ParticleTerm.indexed ⟨norm, c, cl⟩ table = .ok term' ∧ term.Perm term' ∧
      termOperator term = ((-1 : ℂ)) ^ n • termOperator term' := by
  have hsw := (normOuter_swaps aocs.length aocs 0 (Nat.le_refl _)).1 norm n h
  obtain ⟨hq, rfl⟩ := indexed_ok_iff.mp hterm
  refine ⟨norm.map (indexedAoC table), indexed_ok_iff.mpr ⟨?_, rfl⟩, hsw.perm.map _, ?_⟩
  · intro a ha
    exact hq a (hsw.perm.mem_iff.mpr ha)
  · have := swaps_operator hT hsw (by
      intro a ha
      obtain ⟨i, hi⟩ := hq a ha
      refine ⟨i, hi, ?_⟩
      have := hpos (indexedAoC table a) (List.mem_map_of_mem ha)
      simpa [indexedAoC, hi, Except.toOption] using this)
    simpa using this

/-- **C12** (matrices).  Any matrix representation of the unsorted product is reproduced by the
normal-ordered one with the coefficient multiplied by `(-1)^n`. -/
theorem C12_normalize_preserves_matrix (objs : List StateID) (s : ℤ) (table : IndexTable StateID)
    (hT : IndexTable.init objs s = .ok table) (aocs norm : List AoC) (n : ℕ)
    (h : normalize aocs = .ok (norm, n)) (c : ℂ) (right : List ℕ) (left : Option (List ℕ))
    (hs : (left.getD right).Pairwise (· < ·)) (M : Csr)
    (hM : (ParticleTerm.matrixRepr ⟨aocs, c, .general⟩ table right left).2 = .ok M) :
    ∃ M', (ParticleTerm.matrixRepr ⟨norm, (-1) ^ n * c, .general⟩ table right left).2 = .ok M' ∧
      M'.toMatrix (left.getD right).length right.length =
        M.toMatrix (left.getD right).length right.length := by
  rw [matrixRepr_none, bind_ok_iff] at hM
  obtain ⟨term, hterm, hM⟩ := hM
  have hv := (general_csr_image hM).1
  obtain ⟨term', hterm', hperm, hop⟩ := C12_normalize_preserves_operator objs s table hT aocs norm n h
    _ _ term hterm (fun p hp => (hv.2 p hp).1)
  have hv' : ValidTerm term' :=
    ⟨fun hn => hv.1 (by rw [hn] at hperm; exact hperm.eq_nil),
      fun p hp => hv.2 p (hperm.mem_iff.mpr hp)⟩
  obtain ⟨M', hM', hget⟩ := general_csr_proportional (z := (-1) ^ n)
    (by simp) hop hs hM hv'
  refine ⟨M', ?_, ?_⟩
  · rw [matrixRepr_none, bind_ok_iff]
    refine ⟨term', ?_, hM'⟩
    rw [← hterm']
    exact indexed_congr_error rfl table
  · ext r j
    exact hget r j r.2 j.2

/-- **C23** at the level of terms, partial: a term that passes `check_compatibility` has the same
matrix representation (or the same exception) as the same term classified 'general' - for hopping and
general terms for every choice of bases; for number and Coulomb terms when the left basis is the right
basis and ascending.  Missing: different left bases for number/Coulomb, where the code deviates
(`C23_diagonal_kernels_ignore_left_bases`). -/
theorem C23_compatible_terms_partial (objs : List StateID) (s : ℤ) (table : IndexTable StateID)
    (hT : IndexTable.init objs s = .ok table) (t : ParticleTerm) (right : List ℕ)
    (left : Option (List ℕ)) (hcompat : t.checkCompatibility = true)
    (hdiag : t.classification = .number ∨ t.classification = .coulomb →
      left.getD right = right ∧ right.Pairwise (· < ·)) :
    (t.matrixRepr table right left).2 =
      (ParticleTerm.matrixRepr { t with classification := .general } table right left).2 := by
  rw [matrixRepr_none, matrixRepr_none,
    indexed_congr_error (t := { t with classification := .general }) (u := t) rfl]
  cases hi : t.indexed table with
  | error e => rfl
  | ok term =>
    obtain ⟨hq, rfl⟩ := indexed_ok_iff.mp hi
    change matrixFunctionCsr _ _ _ _ _ = matrixFunctionCsr _ _ _ _ _
    unfold ParticleTerm.checkCompatibility at hcompat
    cases hcl : t.classification with
    | general => rfl
    | hopping =>
      simp only [hcl] at hcompat
      split at hcompat
      · rename_i a0 a1 haocs
        rw [haocs] at hq ⊢
        simp only [Bool.and_eq_true, decide_eq_true_eq, rich_ne_iff] at hcompat
        obtain ⟨⟨h0, h1⟩, hne⟩ := hcompat
        obtain ⟨i0, hi0⟩ := hq a0 (by simp)
        obtain ⟨i1, hi1⟩ := hq a1 (by simp)
        have hii : i0 ≠ i1 := by
          rintro rfl
          exact hne (queryIndex_inj hT hi0 hi1)
        simp only [List.map_cons, List.map_nil, indexedAoC, hi0, hi1, Except.toOption,
          Option.getD_some, h0, h1]
        exact C23_hopping_kernel i0 i1 hii right left t.coeff
      · simp at hcompat
    | number =>
      obtain ⟨hl, hs⟩ := hdiag (.inl hcl)
      simp only [hcl] at hcompat
      split at hcompat
      · rename_i a0 a1 haocs
        rw [haocs] at hq ⊢
        simp only [Bool.and_eq_true, decide_eq_true_eq] at hcompat
        obtain ⟨⟨h0, h1⟩, heq⟩ := hcompat
        have heq' := queryIndex_congr table _ _ ((stateEq_iff _ _).mp heq)
        obtain ⟨i0, hi0⟩ := hq a0 (by simp)
        simp only [List.map_cons, List.map_nil, indexedAoC, ← heq', hi0, Except.toOption,
          Option.getD_some, h0, h1]
        rw [csr_congr_left (left' := none) (by simpa using hl),
          csr_congr_left (left := left) (left' := none) (by simpa using hl)]
        exact (C23_diagonal_kernels_partial i0 i0 right hs t.coeff).1
      · simp at hcompat
    | coulomb =>
      obtain ⟨hl, hs⟩ := hdiag (.inr hcl)
      simp only [hcl] at hcompat
      split at hcompat
      · rename_i a0 a1 a2 a3 haocs
        rw [haocs] at hq ⊢
        simp only [Bool.and_eq_true, decide_eq_true_eq] at hcompat
        obtain ⟨⟨⟨⟨⟨h0, h1⟩, h2⟩, h3⟩, heq⟩, heq2⟩ := hcompat
        have heq' := queryIndex_congr table _ _ ((stateEq_iff _ _).mp heq)
        have heq2' := queryIndex_congr table _ _ ((stateEq_iff _ _).mp heq2)
        obtain ⟨i0, hi0⟩ := hq a0 (by simp)
        obtain ⟨i2, hi2⟩ := hq a2 (by simp)
        simp only [List.map_cons, List.map_nil, indexedAoC, ← heq', ← heq2', hi0, hi2,
          Except.toOption, Option.getD_some, h0, h1, h2, h3]
        rw [csr_congr_left (left' := none) (by simpa using hl),
          csr_congr_left (left := left) (left' := none) (by simpa using hl)]
        exact (C23_diagonal_kernels_partial i0 i2 right hs t.coeff).2
      · simp at hcompat

/-- **C22** at the level of terms: whenever `t` is represented from `B` to `L` and `u` from `R` to `B`,
`t * u` is represented from `R` to `L` by the matrix product (special classifications included, as far
as their kernels are sound). -/
theorem C22_product_of_particle_terms (objs : List StateID) (s : ℤ) (table : IndexTable StateID)
    (hT : IndexTable.init objs s = .ok table) (zoom : ℤ) (t u v : ParticleTerm)
    (hv : pyMul zoom (.term t) (.term u) = .ok (.term v)) (R B L : List ℕ)
    (hB : B.Pairwise (· < ·)) (hL : L.Pairwise (· < ·)) (Mt Mu : Csr)
    (hct : t.checkCompatibility = true) (hcu : u.checkCompatibility = true)
    (hdt : t.classification = .number ∨ t.classification = .coulomb → L = B)
    (hdu : u.classification = .number ∨ u.classification = .coulomb → B = R)
    (ht : (t.matrixRepr table B (some L)).2 = .ok Mt)
    (hu : (u.matrixRepr table R (some B)).2 = .ok Mu) :
    ∃ M, (v.matrixRepr table R (some L)).2 = .ok M ∧
      M.toMatrix L.length R.length =
        Mt.toMatrix L.length B.length * Mu.toMatrix B.length R.length := by
  have hvt : v = ⟨t.aocs ++ u.aocs, t.coeff * u.coeff, .general⟩ := by
    simp only [pyMul, pyMulBasic, ParticleTerm.mul, Option.map_some, bind, Except.bind] at hv
    cases hv; rfl
  subst hvt
  rw [C23_compatible_terms_partial objs s table hT t B (some L) hct
    (fun h => ⟨hdt h, hB⟩), matrixRepr_none, bind_ok_iff] at ht
  rw [C23_compatible_terms_partial objs s table hT u R (some B) hcu
    (fun h => ⟨hdu h, hdu h ▸ hB⟩), matrixRepr_none, bind_ok_iff] at hu
  obtain ⟨tt, htt, ht⟩ := ht
  obtain ⟨uu, huu, hu⟩ := hu
  obtain ⟨M, hM, heq⟩ := C22_product_of_terms tt uu R B L _ _ Mt Mu hB hL ht hu
  refine ⟨M, ?_, heq⟩
  rw [matrixRepr_none, bind_ok_iff]
  refine ⟨tt ++ uu, ?_, hM⟩
  obtain ⟨h1, rfl⟩ := indexed_ok_iff.mp htt
  obtain ⟨h2, rfl⟩ := indexed_ok_iff.mp huu
  rw [indexed_ok_iff]
  refine ⟨?_, by simp⟩
  intro a ha
  rcases List.mem_append.mp ha with ha | ha
  · exact h1 a ha
  · exact h2 a ha

theorem dagger_term {zoom : ℤ} {t td : ParticleTerm}
    (hz : ∀ a ∈ t.aocs, a.state.BuiltUnder zoom) (hd : t.dagger zoom = .ok td) :
    td = ⟨t.aocs.reverse.map (fun a => ⟨a.otype.flip, a.state⟩), (starRingEnd ℂ) t.coeff,
      .general⟩ := by
  unfold ParticleTerm.dagger at hd
  rw [bind_ok_iff] at hd
  obtain ⟨l, hl, hd⟩ := hd
  cases hd
  congr 1
  rw [mapM_ok_iff] at hl
  apply List.ext_getElem
  · simp [← forall₂_length hl]
  · intro i h1 h2
    have hi : i < t.aocs.reverse.length := by simpa using h2
    have := forall₂_getElem hl i hi
    rw [dagger_of_built (hz _ (List.mem_reverse.mp (List.getElem_mem hi)))] at this
    rw [← Except.ok.inj this, List.getElem_map]
    cases (t.aocs.reverse[i]).otype <;> rfl

/-- **C24.** When both exist, the matrix of `t.dagger()` from `L` to `R` is the conjugate transpose of
the matrix of `t` from `R` to `L`.  (All operators of `t` built under the precision in force when
`dagger` is called; number/Coulomb classified terms with one common ascending basis.) -/
theorem C24_dagger_is_conjugate_transpose (objs : List StateID) (s : ℤ)
    (table : IndexTable StateID) (hT : IndexTable.init objs s = .ok table) (zoom : ℤ)
    (t td : ParticleTerm) (hz : ∀ a ∈ t.aocs, a.state.BuiltUnder zoom)
    (hd : t.dagger zoom = .ok td) (hct : t.checkCompatibility = true) (R L : List ℕ)
    (hdt : t.classification = .number ∨ t.classification = .coulomb → L = R)
    (hR : R.Pairwise (· < ·)) (hL : L.Pairwise (· < ·)) (M Md : Csr)
    (hM : (t.matrixRepr table R (some L)).2 = .ok M)
    (hMd : (td.matrixRepr table L (some R)).2 = .ok Md) :
    Md.toMatrix R.length L.length = (M.toMatrix L.length R.length).conjTranspose := by
  have hRn : R.Nodup := hR.imp (fun h => Nat.ne_of_lt h)
  have hLn : L.Nodup := hL.imp (fun h => Nat.ne_of_lt h)
  have htd := dagger_term hz hd
  subst htd
  rw [C23_compatible_terms_partial objs s table hT t R (some L) hct
    (fun h => ⟨hdt h, hR⟩), matrixRepr_none, bind_ok_iff] at hM
  rw [matrixRepr_none, bind_ok_iff] at hMd
  obtain ⟨term, hterm, hM⟩ := hM
  obtain ⟨termd, htermd, hMd⟩ := hMd
  obtain ⟨h1, rfl⟩ := indexed_ok_iff.mp hterm
  obtain ⟨h2, rfl⟩ := indexed_ok_iff.mp htermd
  ext r l
  simp only [Csr.toMatrix, Matrix.conjTranspose_apply, Matrix.of_apply]
  rw [general_csr_get hMd hRn r l r.2 l.2, general_csr_get hM hLn l r l.2 r.2]
  simp only [Option.getD_some, star_mul']
  congr 1
  have hadj := isAdj_fockProduct ((t.aocs.map (indexedAoC table)).map (fun p => (p.1.toNat, p.2)))
  have := hadj.symm (occ R[r]) (occ L[l])
  have heq : fockProduct ((((t.aocs.map (indexedAoC table)).map
        (fun p => (p.1.toNat, p.2))).reverse).map (fun p => (p.1, p.2.flip))) =
      termOperator ((t.aocs.reverse.map (fun a => (⟨a.otype.flip, a.state⟩ : AoC))).map
        (indexedAoC table)) := by
    unfold termOperator
    congr 1
    simp only [List.map_map, List.map_reverse]
    rfl
  rw [heq] at this
  exact this

/-- **C24** (consequence): when both exist on one ascending basis, the matrix of `t + t.dagger()` is
Hermitian. -/
theorem C24_term_plus_dagger_hermitian (objs : List StateID) (s : ℤ)
    (table : IndexTable StateID) (hT : IndexTable.init objs s = .ok table) (zoom : ℤ)
    (t td : ParticleTerm) (hz : ∀ a ∈ t.aocs, a.state.BuiltUnder zoom)
    (hd : t.dagger zoom = .ok td) (hct : t.checkCompatibility = true) (R : List ℕ)
    (hR : R.Pairwise (· < ·)) (M Md : Csr)
    (hM : (t.matrixRepr table R).2 = .ok M) (hMd : (td.matrixRepr table R).2 = .ok Md) :
    (M.toMatrix R.length R.length + Md.toMatrix R.length R.length).IsHermitian := by
  have hMd' : (td.matrixRepr table R (some R)).2 = .ok Md := hMd
  have := C24_dagger_is_conjugate_transpose objs s table hT zoom t td hz hd hct R R
    (fun _ => rfl) hR hR M Md hM hMd'
  rw [this]
  exact Matrix.isHermitian_add_transpose_self _

/-- Non-vacuity of C12, C22-C24: two states built under the default precision, their table, the
hopping term `2i c_0^dagger c_1` and its dagger, and both matrices on the ascending basis `{01, 10}`. -/
example :
    ∃ (s0 s1 : StateID) (table : IndexTable StateID) (t td : ParticleTerm) (M Md : Csr),
      StateID.init defaultZoom [.int 0] = .ok s0 ∧ StateID.init defaultZoom [.int 1] = .ok s1 ∧
      IndexTable.init [s0, s1] 0 = .ok table ∧
      t = ⟨[⟨.creation, s0⟩, ⟨.annihilation, s1⟩], 2 * Complex.I, .hopping⟩ ∧
      t.checkCompatibility = true ∧ t.dagger defaultZoom = .ok td ∧
      normalize [⟨.annihilation, s1⟩, ⟨.creation, s0⟩] = .ok (t.aocs, 1) ∧
      (t.matrixRepr table [1, 2]).2 = .ok M ∧ (td.matrixRepr table [1, 2]).2 = .ok Md ∧
      M.get 0 1 = 2 * Complex.I ∧ Md.get 1 0 = -(2 * Complex.I) := by
  have h1 : matrixData [(0, .creation), (1, .annihilation)] [1, 2] none .hopping =
      .ok [(0, 0, 0), (0, 1, 1)] := rfl
  have h2 : matrixData [(1, .creation), (0, .annihilation)] [1, 2] none .general =
      .ok [(1, 0, 1), (0, 0, 0)] := rfl
  obtain ⟨M, hM, hMget⟩ := csr_of_data (c := 2 * Complex.I) h1 (by simp)
  obtain ⟨Md, hMd, hMdget⟩ := csr_of_data (c := (starRingEnd ℂ) (2 * Complex.I)) h2 (by simp)
  refine ⟨_, _, _, _, _, M, Md, rfl, rfl, rfl, rfl, rfl, rfl, rfl, hM, hMd, ?_, ?_⟩
  · rw [hMget]; simp
  · rw [hMdget]; simp [Complex.ext_iff]

/-! ### C27 -/

/-- What a caller may do with one term between reading it: assign `coeff`, or call `matrix_repr`. -/
inductive TermEvent
  | setCoeff (c : CoeffArg)
  | matrixRepr (right : List ℕ) (left : Option (List ℕ)) (coeff : Option CoeffArg)

/-- The term after a history of events. -/
noncomputable def runTerm (table : IndexTable StateID) (t : ParticleTerm) :
    List TermEvent → ParticleTerm
  | [] => t
  | .setCoeff c :: es => runTerm table (t.setCoeff c).1 es
  | .matrixRepr r l c :: es => runTerm table (t.matrixRepr table r l c).1 es

/-- Specification: the number most recently given as a coefficient, `c0` if none was. -/
def lastCoeff (c0 : ℂ) : List TermEvent → ℂ
  | [] => c0
  | .setCoeff (.num c) :: es => lastCoeff c es
  | .matrixRepr _ _ (some (.num c)) :: es => lastCoeff c es
  | _ :: es => lastCoeff c0 es

/-- **C27** (particle terms).  After any history the components and the classification are unchanged
and the coefficient is the most recently given one; so the matrix a further `matrix_repr` call
produces is the unit-coefficient matrix times the most recently given coefficient (that of the call
itself if it gives one), and it raises exactly when the unit one does (or on a non-number). -/
theorem C27_last_coefficient_used (table : IndexTable StateID) (t : ParticleTerm)
    (es : List TermEvent) :
    (runTerm table t es).aocs = t.aocs ∧
    (runTerm table t es).classification = t.classification ∧
    (runTerm table t es).coeff = lastCoeff t.coeff es ∧
    ∀ right left coeff, coeff ≠ some .other →
      (∀ e, ((runTerm table t es).matrixRepr table right left coeff).2 = .error e ↔
        (ParticleTerm.matrixRepr { t with coeff := 1 } table right left).2 = .error e) ∧
      ∀ M, ((runTerm table t es).matrixRepr table right left coeff).2 = .ok M →
        ∃ U, (ParticleTerm.matrixRepr { t with coeff := 1 } table right left).2 = .ok U ∧
          ∀ r j, M.get r j =
            lastCoeff t.coeff (es ++ [.matrixRepr right left coeff]) * U.get r j := by
  have main : (runTerm table t es).aocs = t.aocs ∧
      (runTerm table t es).classification = t.classification ∧
      (runTerm table t es).coeff = lastCoeff t.coeff es := by
    induction es generalizing t with
    | nil => exact ⟨rfl, rfl, rfl⟩
    | cons e es ih =>
      cases e with
      | setCoeff c =>
        cases c with
        | num c => exact ih { t with coeff := c }
        | other => exact ih t
      | matrixRepr r l c =>
        cases c with
        | none => exact ih t
        | some c =>
          cases c with
          | num c => exact ih { t with coeff := c }
          | other => exact ih t
  have happ : ∀ (c0 : ℂ) right left coeff, lastCoeff c0 (es ++ [.matrixRepr right left coeff]) =
      lastCoeff (lastCoeff c0 es) [.matrixRepr right left coeff] := by
    intro c0 right left coeff
    clear main
    induction es generalizing c0 with
    | nil => rfl
    | cons e es ih =>
      cases e with
      | setCoeff c => cases c <;> exact ih _
      | matrixRepr r l c =>
        cases c with
        | none => exact ih _
        | some c => cases c <;> exact ih _
  obtain ⟨h1, h2, h3⟩ := main
  refine ⟨h1, h2, h3, ?_⟩
  intro right left coeff hco
  generalize hu : runTerm table t es = u at *
  -- the call runs with the coefficient `c`
  obtain ⟨c, hc, hcall⟩ : ∃ c, c = lastCoeff t.coeff (es ++ [.matrixRepr right left coeff]) ∧
      (u.matrixRepr table right left coeff).2 =
        (u.indexed table >>= fun term => matrixFunctionCsr term right left c u.classification) := by
    refine ⟨_, rfl, ?_⟩
    rw [happ, ← h3]
    cases coeff with
    | none => rfl
    | some c =>
      cases c with
      | num c => rfl
      | other => exact absurd rfl hco
  rw [hcall, matrixRepr_none, indexed_congr_error (u := t) h1, h2,
    indexed_congr_error (t := { t with coeff := 1 }) (u := t) rfl, ← hc]
  constructor
  · intro e
    rw [bind_error_iff, bind_error_iff]
    apply or_congr Iff.rfl
    apply exists_congr
    intro term
    rw [csr_error_iff, csr_error_iff]
  · intro M hM
    rw [bind_ok_iff] at hM
    obtain ⟨term, hterm, hM⟩ := hM
    obtain ⟨data, hd, hb, -, -, hget, -⟩ := csr_ok_iff.mp hM
    obtain ⟨U, hU, hUget⟩ := csr_of_data (c := 1) hd hb
    refine ⟨U, ?_, ?_⟩
    · rw [bind_ok_iff]
      exact ⟨term, hterm, hU⟩
    · intro r j
      rw [hget, hUget, ← List.sum_map_mul_left]
      congr 1
      apply List.map_congr_left
      intro d _
      split <;> simp

/-- **C27** (rejection).  A coefficient that is not a number is rejected with AssertionError, both by
the setter and by `matrix_repr`, and leaves the term unchanged. -/
theorem C27_non_number_rejected (table : IndexTable StateID) (t : ParticleTerm) (right : List ℕ)
    (left : Option (List ℕ)) :
    t.setCoeff .other = (t, .error .assertionError) ∧
    t.matrixRepr table right left (some .other) = (t, .error .assertionError) := ⟨rfl, rfl⟩

/-! ### C28 -/

theorem number_csr {i : ℤ} {bases : List ℕ} {c : ℂ} {M : Csr}
    (h : matrixFunctionCsr [(i, .creation), (i, .annihilation)] bases none c .number = .ok M)
    (hn : bases.Nodup) :
    0 ≤ i ∧ M.nrow = bases.length ∧ M.ncol = bases.length ∧
    ∀ (r : ℕ) (_ : r < bases.length) (j : ℕ) (hj : j < bases.length),
      M.get r j = if r = j ∧ i.toNat ∈ occ bases[j] then c else 0 := by
  obtain ⟨data, hd, hb, h1, h2, hget, -⟩ := csr_ok_iff.mp h
  unfold matrixData at hd
  rw [bind_ok_iff] at hd
  obtain ⟨rows, hrows, hd⟩ := hd
  obtain ⟨rfl, -, hv⟩ := termArray_ok hrows
  refine ⟨(hv (i, .creation) (by simp)).1, h1, h2, ?_⟩
  intro r hr j hj
  refine diag_get (fun k => i.toNat ∈ occ k) (data := data) ?_ hget hn r j hr hj
  have : coreNumber [mkRow (i.toNat, .creation), mkRow (i.toNat, .annihilation)] bases = .ok data := hd
  unfold coreNumber at this
  simp only [and_mask_ne_zero, show (mkRow (i.toNat, .creation)).mask = 1 <<< i.toNat from rfl,
    Except.ok.injEq] at this
  exact this.symm

/-- **C28** (occupation).  On a duplicate-free basis `NumberOperator.matrix_repr` is the diagonal 0/1
matrix of the occupation of the operator's state; on an ascending basis it is the matrix of the
operator's `toterm()`. -/
theorem C28_number_operator_matrix (table : IndexTable StateID) (zoom : ℤ) (n : NumberOperator) (bases : List ℕ)
    (hn : bases.Nodup) (M : Csr) (hM : n.matrixRepr table bases = .ok M) :
    (∃ i : ℤ, 0 ≤ i ∧ table.queryIndex n.state = .ok i ∧
      M.toMatrix bases.length bases.length =
        Matrix.diagonal (fun j => if bases[j].testBit i.toNat then 1 else 0)) ∧
    (bases.Pairwise (· < ·) → n.state.BuiltUnder zoom → ∀ t, n.toterm zoom = .ok t →
      (t.matrixRepr table bases).2 = .ok M) := by
  unfold NumberOperator.matrixRepr at hM
  rw [bind_ok_iff] at hM
  obtain ⟨i, hi, hM⟩ := hM
  obtain ⟨hi0, -, -, hget⟩ := number_csr hM hn
  constructor
  · refine ⟨i, hi0, hi, ?_⟩
    ext r j
    rw [Csr.toMatrix, Matrix.of_apply, hget r r.2 j j.2, Matrix.diagonal_apply]
    by_cases hrj : r = j
    · subst hrj; simp [mem_occ]
    · rw [if_neg hrj, if_neg]
      rintro ⟨h, -⟩
      exact hrj (Fin.ext h)
  · intro hs hz t ht
    rw [toterm_of_built hz] at ht
    cases ht
    have h1 := (C23_diagonal_kernels_partial i i bases hs 1).1
    rw [matrixRepr_none, bind_ok_iff]
    refine ⟨_, indexed_ok_iff.mpr ⟨?_, rfl⟩, ?_⟩
    · intro a ha
      simp only [List.mem_cons, List.not_mem_nil, or_false] at ha
      rcases ha with rfl | rfl <;> exact ⟨i, hi⟩
    · simp only [List.map_cons, List.map_nil, indexedAoC, hi, Except.toOption, Option.getD_some]
      rw [← h1]
      exact hM

/-- **C28** (sum rule).  On a duplicate-free basis all of whose kets have exactly `N` of the listed
states occupied, the matrices of the number operators of these states sum to `N`
times the identity. -/
theorem C28_number_operators_sum (table : IndexTable StateID) (ns : List NumberOperator)
    (idx : List ℕ) (hidx : List.Forall₂
      (fun (n : NumberOperator) (i : ℕ) => table.queryIndex n.state = .ok (i : ℤ)) ns idx)
    (bases : List ℕ) (hn : bases.Nodup) (N : ℕ)
    (hN : ∀ k ∈ bases, (idx.filter (fun i => k.testBit i)).length = N)
    (Ms : List Csr)
    (hM : List.Forall₂ (fun n M => NumberOperator.matrixRepr n table bases = .ok M) ns Ms) :
    (Ms.map (fun M => M.toMatrix bases.length bases.length)).sum =
      (N : ℂ) • (1 : Matrix (Fin bases.length) (Fin bases.length) ℂ) := by
  ext r j
  have key : ∀ (ns : List NumberOperator) (idx : List ℕ) (Ms : List Csr),
      List.Forall₂
        (fun (n : NumberOperator) (i : ℕ) => table.queryIndex n.state = .ok (i : ℤ)) ns idx →
      List.Forall₂ (fun n M => NumberOperator.matrixRepr n table bases = .ok M) ns Ms →
      (Ms.map (fun M => M.toMatrix bases.length bases.length)).sum r j =
        if r = j then ((idx.filter (fun i => bases[j].testBit i)).length : ℂ) else 0 := by
    intro ns idx Ms h1 h2
    induction h1 generalizing Ms with
    | nil => cases h2; simp
    | @cons n i ns idx hq _ ih =>
      cases h2 with
      | @cons _ M _ Ms hM h2 =>
        simp only [List.map_cons, List.sum_cons, Matrix.add_apply, ih Ms h2, List.filter_cons]
        unfold NumberOperator.matrixRepr at hM
        rw [bind_ok_iff] at hM
        obtain ⟨i', hi', hM⟩ := hM
        rw [hq] at hi'
        cases hi'
        obtain ⟨hi0, -, -, hget⟩ := number_csr hM hn
        rw [Csr.toMatrix, Matrix.of_apply, hget r r.2 j j.2]
        simp only [mem_occ, Int.toNat_natCast, Fin.val_inj, Fin.getElem_fin]
        by_cases hrj : r = j
        · by_cases hb : bases[(j : ℕ)].testBit i = true
          · simp [hrj, hb, add_comm]
          · simp [hrj, hb]
        · simp [hrj]
  rw [key ns idx Ms hidx hM, Matrix.smul_apply, Matrix.one_apply,
    hN bases[j] (List.getElem_mem _)]
  split <;> simp

/-- Non-vacuity of C28: two states, the one-particle basis, the two occupation matrices. -/
example :
    ∃ (s0 s1 : StateID) (table : IndexTable StateID) (M0 M1 : Csr),
      StateID.init defaultZoom [.int 0] = .ok s0 ∧ StateID.init defaultZoom [.int 1] = .ok s1 ∧
      IndexTable.init [s0, s1] 0 = .ok table ∧
      NumberOperator.matrixRepr ⟨s0⟩ table [1, 2] = .ok M0 ∧
      NumberOperator.matrixRepr ⟨s1⟩ table [1, 2] = .ok M1 ∧
      (∀ k ∈ [1, 2], ([0, 1].filter (fun i => Nat.testBit k i)).length = 1) := by
  have h1 : matrixData [(0, .creation), (0, .annihilation)] [1, 2] none .number =
      .ok [(0, 0, 1), (0, 0, 0)] := rfl
  have h2 : matrixData [(1, .creation), (1, .annihilation)] [1, 2] none .number =
      .ok [(0, 0, 0), (1, 1, 1)] := rfl
  obtain ⟨M0, hM0, -⟩ := csr_of_data (c := 1) h1 (by simp)
  obtain ⟨M1, hM1, -⟩ := csr_of_data (c := 1) h2 (by simp)
  exact ⟨_, _, _, M0, M1, rfl, rfl, rfl, hM0, hM1, by decide⟩

end Verif
