import Verif.Proofs.Normalize
import Verif.Proofs.Kernels
import Verif.Proofs.Particle
import Verif.Props.IndexTable
import Mathlib.Tactic.Module
/-! Terms resolved through an index table. -/

namespace Verif
open Spec

theorem stateEq_iff (a b : StateID) : PyObj.eq a b = true ↔ a.hashKey = b.hashKey := by
  change a.rich .eq b = true ↔ _
  simp [stateRich_eq, linRich, stateKey_eq_iff]

/-- equal states have the same index (any table) -/
theorem queryIndex_congr (table : IndexTable StateID) (a b : StateID) (h : a.hashKey = b.hashKey) :
    table.queryIndex a = table.queryIndex b := by
  have : ∀ d : List (StateID × ℤ), dictGet PyObj.eq d a = dictGet PyObj.eq d b := by
    intro d
    induction d with
    | nil => rfl
    | cons x d ih =>
      simp only [dictGet, ih]
      have : PyObj.eq x.1 a = PyObj.eq x.1 b := by
        rw [Bool.eq_iff_iff, stateEq_iff, stateEq_iff, h]
      rw [this]
  unfold IndexTable.queryIndex
  rw [this]
  rfl

/-- different states have different indices (tables built by the constructor) -/
theorem queryIndex_inj {objs : List StateID} {s : ℤ} {table : IndexTable StateID}
    (hT : IndexTable.init objs s = .ok table) {a b : StateID} {i : ℤ}
    (ha : table.queryIndex a = .ok i) (hb : table.queryIndex b = .ok i) :
    a.hashKey = b.hashKey := by
  have hinv := (C01_indextable_bijection objs s table hT).2.2.2.2.2.2
  obtain ⟨o, ho, hoa⟩ := hinv a i ha
  obtain ⟨o', ho', hob⟩ := hinv b i hb
  rw [ho] at ho'
  cases ho'
  rw [stateEq_iff] at hoa hob
  rw [← hoa, hob]

/-- the `(index, otype)` pair of an operator -/
def indexedAoC (table : IndexTable StateID) (a : AoC) : ℤ × Otype :=
  ((table.queryIndex a.state).toOption.getD 0, a.otype)

theorem indexed_ok_iff {t : ParticleTerm} {table : IndexTable StateID} {term : List (ℤ × Otype)} :
    t.indexed table = .ok term ↔
      (∀ a ∈ t.aocs, ∃ i, table.queryIndex a.state = .ok i) ∧
        term = t.aocs.map (indexedAoC table) := by
  unfold ParticleTerm.indexed
  rw [mapM_ok_iff]
  constructor
  · intro h
    refine ⟨?_, ?_⟩
    · intro a ha
      obtain ⟨i, hi, rfl⟩ := List.mem_iff_getElem.mp ha
      have := forall₂_getElem h i hi
      rw [bind_ok_iff] at this
      obtain ⟨j, hj, -⟩ := this
      exact ⟨j, hj⟩
    · apply List.ext_getElem
      · simp [forall₂_length h]
      · intro i h1 h2
        have := forall₂_getElem h i (by simpa using h2)
        rw [bind_ok_iff] at this
        obtain ⟨j, hj, this⟩ := this
        rw [← Except.ok.inj this]
        simp [indexedAoC, hj, Except.toOption]
  · rintro ⟨h, rfl⟩
    apply forall₂_of_getElem (by simp)
    intro i hi
    obtain ⟨j, hj⟩ := h _ (List.getElem_mem hi)
    rw [bind_ok_iff]
    refine ⟨j, hj, ?_⟩
    simp [indexedAoC, hj, Except.toOption, pure, Except.pure]

theorem indexed_congr_error {t u : ParticleTerm} (h : t.aocs = u.aocs) (table : IndexTable StateID) :
    t.indexed table = u.indexed table := by
  unfold ParticleTerm.indexed
  rw [h]

theorem fockOp_anticomm (o o' : Otype) (i j : ℕ) (hij : i ≠ j) :
    fockOp o i * fockOp o' j = (-1 : ℂ) • (fockOp o' j * fockOp o i) := by
  have key : fockOp o i * fockOp o' j + fockOp o' j * fockOp o i = 0 := by
    cases o <;> cases o'
    · exact annihilate_annihilate i j
    · have := annihilate_create i j
      rwa [if_neg hij] at this
    · have := annihilate_create j i
      rw [if_neg (Ne.symm hij), add_comm] at this
      exact this
    · exact create_create i j
  calc fockOp o i * fockOp o' j
      = (fockOp o i * fockOp o' j + fockOp o' j * fockOp o i) +
          (-1 : ℂ) • (fockOp o' j * fockOp o i) := by module
    _ = _ := by rw [key, zero_add]

theorem termOperator_append (t u : List (ℤ × Otype)) :
    termOperator (t ++ u) = termOperator t * termOperator u := by
  simp [termOperator, fockProduct]

theorem termOperator_cons (p : ℤ × Otype) (u : List (ℤ × Otype)) :
    termOperator (p :: u) = fockOp p.2 p.1.toNat * termOperator u := by
  simp [termOperator, fockProduct]

theorem swaps_operator {objs : List StateID} {s : ℤ} {table : IndexTable StateID}
    (hT : IndexTable.init objs s = .ok table) {l : List AoC} {c : ℕ} {l' : List AoC} {c' : ℕ}
    (h : Swaps l c l' c')
    (hq : ∀ a ∈ l, ∃ i, table.queryIndex a.state = .ok i ∧ 0 ≤ i) :
    ((-1 : ℂ)) ^ c • termOperator (l.map (indexedAoC table)) =
      ((-1 : ℂ)) ^ c' • termOperator (l'.map (indexedAoC table)) := by
  induction h with
  | refl => rfl
  | @swap l c l' c' pre x y post hgt hne hl _ ih =>
    have hmem : ∀ a ∈ pre ++ y :: x :: post, a ∈ l := by
      intro a ha
      rw [hl]
      simp only [List.mem_append, List.mem_cons] at ha ⊢
      tauto
    rw [← ih (fun a ha => hq a (hmem a ha)), hl]
    obtain ⟨i, hi, hi0⟩ := hq x (hl ▸ by simp)
    obtain ⟨j, hj, hj0⟩ := hq y (hl ▸ by simp)
    have hij : i.toNat ≠ j.toNat := by
      intro hcon
      have : i = j := by omega
      subst this
      exact hne (queryIndex_inj hT hi hj)
    simp only [List.map_append, List.map_cons, termOperator_append, termOperator_cons]
    have hx : (indexedAoC table x).1 = i := by simp [indexedAoC, hi, Except.toOption]
    have hy : (indexedAoC table y).1 = j := by simp [indexedAoC, hj, Except.toOption]
    rw [hx, hy, ← mul_assoc (fockOp _ i.toNat), fockOp_anticomm _ _ _ _ hij, pow_succ, smul_mul_assoc,
      mul_smul_comm, smul_smul, mul_assoc]

/-- two valid terms with proportional operators have proportional matrices -/
theorem general_csr_proportional {t u : List (ℤ × Otype)} {right : List ℕ} {left : Option (List ℕ)}
    {c z : ℂ} {M : Csr} (hz : z ≠ 0) (hop : termOperator t = z • termOperator u)
    (hs : (left.getD right).Pairwise (· < ·))
    (hM : matrixFunctionCsr t right left c .general = .ok M)
    (hu : ValidTerm u) :
    ∃ M', matrixFunctionCsr u right left (z * c) .general = .ok M' ∧
      ∀ r j, r < (left.getD right).length → j < right.length → M'.get r j = M.get r j := by
  have hn : (left.getD right).Nodup := hs.imp (fun h => Nat.ne_of_lt h)
  obtain ⟨hv, hne, him⟩ := general_csr_image hM
  have hin : ∀ k ∈ right, ∀ k' s, image u k = some (k', s) → k' ∈ left.getD right := by
    intro k hk k' s h
    by_contra hcon
    have := (escape_iff u (left.getD right) k).mpr ⟨k', s, h, hcon⟩
    obtain ⟨S, hS, hout⟩ := this
    have := (escape_iff t (left.getD right) k).mp ⟨S, ?_, hout⟩
    · obtain ⟨k'', s', h', hcon'⟩ := this
      exact hcon' (him k hk k'' s' h')
    · rw [hop]
      simpa [matrixElement, hz] using hS
  obtain ⟨M', hM'⟩ := general_csr_of (z * c) hu hs hne hin
  refine ⟨M', hM', ?_⟩
  intro r j hr hj
  rw [general_csr_get hM hn r j hr hj, general_csr_get hM' hn r j hr hj, hop]
  simp [matrixElement]
  ring

theorem matrixRepr_none (t : ParticleTerm) (table : IndexTable StateID) (right : List ℕ)
    (left : Option (List ℕ)) :
    (t.matrixRepr table right left).2 =
      (t.indexed table >>= fun term => matrixFunctionCsr term right left t.coeff t.classification) :=
  rfl

/-- a compatible specially-classified term, when its kernel is the general one -/
def KernelFits (t : ParticleTerm) (right : List ℕ) (left : Option (List ℕ)) : Prop :=
  t.checkCompatibility = true ∧
    (t.classification = .number ∨ t.classification = .coulomb →
      left.getD right = right ∧ right.Pairwise (· < ·))

theorem csr_congr_left {term : List (ℤ × Otype)} {right : List ℕ} {left left' : Option (List ℕ)}
    {c : ℂ} {tag : Classification} (h : left.getD right = left'.getD right) :
    matrixFunctionCsr term right left c tag = matrixFunctionCsr term right left' c tag := by
  unfold matrixFunctionCsr matrixData
  simp only [h]

end Verif
