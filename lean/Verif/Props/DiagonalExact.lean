import Verif.Proofs.DiagonalExact
import Verif.Props.MatrixTerm
/-!
# C23: exactly when the number and Coulomb kernels agree with the general kernel

For every right basis, every ascending left basis and every non-zero coefficient.
-/

namespace Verif
open Spec

/-- **C23 (exactly when).** A 'number' or 'Coulomb' term that passes `check_compatibility`, with a non-zero
coefficient and all states in the table (indices 0 to 63), has the same matrix representation (or
exception) as the same term classified 'general', if and only if every ket of the right basis in which all
states of the term are occupied is at the same position in the left basis. -/
theorem C23_exactly_when (table : IndexTable StateID) (t : ParticleTerm) (R L : List ℕ)
    (hL : L.Pairwise (· < ·)) (hcompat : t.checkCompatibility = true)
    (hcl : t.classification = .number ∨ t.classification = .coulomb) (hc : t.coeff ≠ 0)
    (hidx : ∀ a ∈ t.aocs, ∃ i : ℕ, i < 64 ∧ table.queryIndex a.state = .ok (i : ℤ)) :
    (t.matrixRepr table R (some L)).2 =
        (ParticleTerm.matrixRepr { t with classification := .general } table R (some L)).2 ↔
      ∀ (j : ℕ) (hj : j < R.length),
        (∀ a ∈ t.aocs, ∀ i : ℕ, table.queryIndex a.state = .ok (i : ℤ) → R[j].testBit i = true) →
        L[j]? = some R[j] := by
  have hind : t.indexed table = .ok (t.aocs.map (indexedAoC table)) :=
    indexed_ok_iff.2 ⟨fun a ha => by obtain ⟨i, -, hi⟩ := hidx a ha; exact ⟨_, hi⟩, rfl⟩
  rw [matrixRepr_none, matrixRepr_none,
    indexed_congr_error (t := { t with classification := .general }) (u := t) rfl, hind]
  change matrixFunctionCsr _ _ _ _ _ = matrixFunctionCsr _ _ _ _ _ ↔ _
  unfold ParticleTerm.checkCompatibility at hcompat
  rcases hcl with hcl | hcl
  · simp only [hcl] at hcompat
    split at hcompat
    · rename_i a0 a1 haocs
      rw [haocs] at hidx ⊢
      simp only [Bool.and_eq_true, decide_eq_true_eq] at hcompat
      obtain ⟨⟨h0, h1⟩, heq⟩ := hcompat
      have heq' := queryIndex_congr table _ _ ((stateEq_iff _ _).mp heq)
      obtain ⟨i, hi, hq⟩ := hidx a0 (by simp)
      simp only [List.map_cons, List.map_nil, indexedAoC, ← heq', hq, Except.toOption, Option.getD_some, h0, h1, hcl]
      have hta := termArray_of_valid (term := [((i : ℤ), Otype.creation), ((i : ℤ), .annihilation)]) (by simp)
        (by simp; omega)
      rw [diag_exact hta hc hL (fun k => i ∈ occ k) ?_ ?_]
      · refine forall_congr' fun j => forall_congr' fun hj => imp_congr_left ?_
        rw [mem_occ]
        constructor
        · intro h a ha i' hi'
          have e : table.queryIndex a.state = .ok (i : ℤ) := by
            simp only [List.mem_cons, List.not_mem_nil, or_false] at ha
            rcases ha with rfl | rfl
            · exact hq
            · rw [← heq']; exact hq
          rw [e] at hi'
          have : i = i' := by exact_mod_cast Except.ok.inj hi'
          rw [← this]; exact h
        · intro h; exact h a0 (by simp) i hq
      · intro k
        simp only [List.map_cons, List.map_nil, Int.toNat_natCast]
        change applyRows (mkRow (i, .annihilation) :: mkRow (i, .creation) :: []) k false = _
        rw [applyRows_number]; rfl
      · unfold matrixData
        rw [hta]
        simp only [bind, Except.bind, List.map_cons, List.map_nil, Int.toNat_natCast]
        unfold coreNumber
        simp only [and_mask_ne_zero, show (mkRow (i, .creation)).mask = 1 <<< i from rfl]
    · simp at hcompat
  · simp only [hcl] at hcompat
    split at hcompat
    · rename_i a0 a1 a2 a3 haocs
      rw [haocs] at hidx ⊢
      simp only [Bool.and_eq_true, decide_eq_true_eq] at hcompat
      obtain ⟨⟨⟨⟨⟨h0, h1⟩, h2⟩, h3⟩, heq⟩, heq2⟩ := hcompat
      have heq' := queryIndex_congr table _ _ ((stateEq_iff _ _).mp heq)
      have heq2' := queryIndex_congr table _ _ ((stateEq_iff _ _).mp heq2)
      obtain ⟨i, hi, hq⟩ := hidx a0 (by simp)
      obtain ⟨i2, hi2, hq2⟩ := hidx a2 (by simp)
      simp only [List.map_cons, List.map_nil, indexedAoC, ← heq', ← heq2', hq, hq2, Except.toOption,
        Option.getD_some, h0, h1, h2, h3, hcl]
      have hta := termArray_of_valid (term := [((i : ℤ), Otype.creation), ((i : ℤ), .annihilation),
        ((i2 : ℤ), .creation), ((i2 : ℤ), .annihilation)]) (by simp) (by simp; omega)
      rw [diag_exact hta hc hL (fun k => i ∈ occ k ∧ i2 ∈ occ k) ?_ ?_]
      · refine forall_congr' fun j => forall_congr' fun hj => imp_congr_left ?_
        rw [mem_occ, mem_occ]
        constructor
        · rintro ⟨g1, g2⟩ a ha i' hi'
          simp only [List.mem_cons, List.not_mem_nil, or_false] at ha
          have e : table.queryIndex a.state = .ok (i : ℤ) ∨ table.queryIndex a.state = .ok (i2 : ℤ) := by
            rcases ha with rfl | rfl | rfl | rfl
            · exact Or.inl hq
            · exact Or.inl (by rw [← heq']; exact hq)
            · exact Or.inr hq2
            · exact Or.inr (by rw [← heq2']; exact hq2)
          rcases e with e | e
          · rw [e] at hi'
            have : i = i' := by exact_mod_cast Except.ok.inj hi'
            rw [← this]; exact g1
          · rw [e] at hi'
            have : i2 = i' := by exact_mod_cast Except.ok.inj hi'
            rw [← this]; exact g2
        · intro h; exact ⟨h a0 (by simp) i hq, h a2 (by simp) i2 hq2⟩
      · intro k
        simp only [List.map_cons, List.map_nil, Int.toNat_natCast]
        change applyRows (mkRow (i2, .annihilation) :: mkRow (i2, .creation) ::
          mkRow (i, .annihilation) :: mkRow (i, .creation) :: []) k false = _
        rw [applyRows_number, applyRows_number]
        by_cases hi : i ∈ occ k <;> by_cases hj : i2 ∈ occ k <;> simp [hi, hj, applyRows]
      · unfold matrixData
        rw [hta]
        simp only [bind, Except.bind, List.map_cons, List.map_nil, Int.toNat_natCast]
        unfold coreCoulomb
        simp only [and_mask_ne_zero, show (mkRow (i, .creation)).mask = 1 <<< i from rfl,
          show (mkRow (i2, .creation)).mask = 1 <<< i2 from rfl]
    · simp at hcompat

/-- A number term on the kets `0, 1, 2`: with the left basis `0, 1, 3` the representations agree (ket 1 is
in place), with the left basis `1, 2, 3` they do not. -/
example : ∃ (s0 s1 : StateID) (table : IndexTable StateID) (t : ParticleTerm),
    StateID.init defaultZoom [.int 0] = .ok s0 ∧ StateID.init defaultZoom [.int 1] = .ok s1 ∧
    IndexTable.init [s0, s1] 0 = .ok table ∧ t = ⟨[⟨.creation, s0⟩, ⟨.annihilation, s0⟩], 1, .number⟩ ∧
    (t.matrixRepr table [0, 1, 2] (some [0, 1, 3])).2 =
      (ParticleTerm.matrixRepr { t with classification := .general } table [0, 1, 2] (some [0, 1, 3])).2 ∧
    (t.matrixRepr table [0, 1, 2] (some [1, 2, 3])).2 ≠
      (ParticleTerm.matrixRepr { t with classification := .general } table [0, 1, 2] (some [1, 2, 3])).2 := by
  refine ⟨_, _, _, _, rfl, rfl, rfl, rfl, ?_, ?_⟩
  · rw [C23_exactly_when _ _ _ _ (by decide) (by rfl) (Or.inl rfl) (by simp) (by
      intro a ha
      simp only [List.mem_cons, List.not_mem_nil, or_false] at ha
      rcases ha with rfl | rfl <;> exact ⟨0, by norm_num, rfl⟩)]
    intro j hj h
    have h0 := h _ List.mem_cons_self 0 rfl
    have : j = 0 ∨ j = 1 ∨ j = 2 := by simp at hj; omega
    rcases this with rfl | rfl | rfl
    · rfl
    · rfl
    · exact absurd h0 (by simp)
  · rw [Ne, C23_exactly_when _ _ _ _ (by decide) (by rfl) (Or.inl rfl) (by simp) (by
      intro a ha
      simp only [List.mem_cons, List.not_mem_nil, or_false] at ha
      rcases ha with rfl | rfl <;> exact ⟨0, by norm_num, rfl⟩)]
    intro h
    have := h 1 (by simp) (by
      intro a ha i hi
      have : i = 0 := by
        simp only [List.mem_cons, List.not_mem_nil, or_false] at ha
        rcases ha with rfl | rfl <;> (have := Except.ok.inj hi; simpa using this.symm)
      subst this; rfl)
    simp at this

/-- **C24** needs the common basis for number and Coulomb terms: `n_0` classified 'number', represented from the basis
`[1, 2]` to `[0, 1]` and (its dagger being itself) from `[0, 1]` to `[1, 2]`: the second matrix is not the conjugate
transpose of the first. -/
theorem C24_diagonal_needs_common_basis :
    ∃ M N : Csr,
      matrixFunctionCsr [(0, .creation), (0, .annihilation)] [1, 2] (some [0, 1]) 1 .number = .ok M ∧
      matrixFunctionCsr [(0, .creation), (0, .annihilation)] [0, 1] (some [1, 2]) 1 .number = .ok N ∧
      M.get 0 0 = 1 ∧ N.get 0 0 = 0 := by
  have hg : matrixData [(0, .creation), (0, .annihilation)] [1, 2] (some [0, 1]) .number =
      .ok [(0, 0, 1), (0, 0, 0)] := rfl
  have hn : matrixData [(0, .creation), (0, .annihilation)] [0, 1] (some [1, 2]) .number =
      .ok [(0, 0, 0), (1, 1, 1)] := rfl
  obtain ⟨M, hM, hMget⟩ := csr_of_data (c := 1) hg (by simp)
  obtain ⟨N, hN, hNget⟩ := csr_of_data (c := 1) hn (by simp)
  refine ⟨M, N, hM, hN, ?_, ?_⟩
  · rw [hMget]; norm_num
  · rw [hNget]; norm_num

end Verif
