import Verif.Proofs.MatrixTerm
/-! Helpers for C23 (`Props/DiagonalExact.lean`). -/

namespace Verif
open Spec

/-- diagonal data against general data -/
theorem diag_exact {term : List (ℤ × Otype)} {rows : List TermRow} (hrows : termArray term = .ok rows)
    {tag : Classification} {R L : List ℕ} {c : ℂ} (hc : c ≠ 0) (hL : L.Pairwise (· < ·))
    (P : ℕ → Prop) [DecidablePred P]
    (happ : ∀ k, applyRows rows.reverse k false = if P k then some (k, false) else none)
    (hdiag : matrixData term R (some L) tag =
      .ok (R.zipIdx.map fun p => if P p.1 then (p.2, p.2, 1) else (0, 0, 0))) :
    matrixFunctionCsr term R (some L) c tag = matrixFunctionCsr term R (some L) c .general ↔
      ∀ (j : ℕ) (hj : j < R.length), P R[j] → L[j]? = some R[j] := by
  have hgen : matrixData term R (some L) .general = coreGeneral rows R L := by
    unfold matrixData; rw [hrows]; rfl
  constructor
  · intro h j hj hP
    cases hg : coreGeneral rows R L with
    | error e =>
      exfalso
      obtain ⟨rfl, -⟩ := (coreGeneral_error_iff hL).1 hg
      unfold matrixFunctionCsr at h
      rw [hgen, hg, hdiag] at h
      simp only [bind, Except.bind] at h
      split at h <;> simp [raise, pure, Except.pure] at h
    | ok data =>
      -- the columns of the general kernel
      have hcol : ∀ i (hi : i < R.length), P R[i] → ∃ r, L[r]? = some R[i] ∧ (r, i, (1 : ℤ)) ∈ data := by
        intro i hi hPi
        have hm := hg
        unfold coreGeneral at hm
        rw [mapM_ok_iff] at hm
        have := forall₂_getElem hm i (by simpa using hi)
        simp only [List.getElem_zipIdx, Nat.zero_add, happ, hPi, if_true] at this
        obtain ⟨r, hr, e⟩ := storeCol_ok this
        refine ⟨r, hr, ?_⟩
        have h2 : (r, i, (1 : ℤ)) = data[i]'(by
          rw [← forall₂_length hm]; simpa using hi) := by rw [e]; rfl
        rw [h2]
        exact List.getElem_mem _
      obtain ⟨r, hr, hmem⟩ := hcol j hj hP
      have hb : ¬ (data.any fun d => decide (((some L).getD R).length ≤ d.1 ∨ R.length ≤ d.2.1)) = true := by
        rw [List.any_eq_true]
        rintro ⟨d, hd, hdec⟩
        have hm := hg
        unfold coreGeneral at hm
        rw [mapM_ok_iff] at hm
        obtain ⟨i, hi, rfl⟩ := List.mem_iff_getElem.1 hd
        have hi' : i < R.length := by rw [← forall₂_length hm] at hi; simpa using hi
        have := forall₂_getElem hm i (by simpa using hi')
        simp only [List.getElem_zipIdx, Nat.zero_add, happ] at this
        have hrL := (List.getElem?_eq_some_iff.1 hr).1
        by_cases hPi : P R[i]
        · simp only [hPi, if_true] at this
          obtain ⟨r', hr', e⟩ := storeCol_ok this
          have := (List.getElem?_eq_some_iff.1 hr').1
          rw [e] at hdec
          simp only [Option.getD_some, decide_eq_true_iff] at hdec
          omega
        · simp only [hPi, if_false] at this
          have e := Except.ok.inj this
          rw [← e] at hdec
          simp only [Option.getD_some, decide_eq_true_iff] at hdec
          omega
      unfold matrixFunctionCsr at h
      rw [hgen, hg, hdiag] at h
      simp only [bind, Except.bind] at h
      rw [if_neg hb] at h
      split at h
      · simp [raise, pure, Except.pure] at h
      · have hcoo := congrArg Csr.coo (Except.ok.inj h)
        simp only at hcoo
        have hin : (r, j, c * ((1 : ℤ) : ℂ)) ∈ (data.map fun d => (d.1, d.2.1, c * (d.2.2 : ℂ))).filter
            (fun e => decide (e.2.2 ≠ 0)) := by
          rw [List.mem_filter]
          exact ⟨List.mem_map.2 ⟨_, hmem, rfl⟩, by simpa using hc⟩
        rw [← hcoo, List.mem_filter, List.mem_map] at hin
        obtain ⟨⟨d, hd, e⟩, -⟩ := hin
        obtain ⟨⟨k, i⟩, -, rfl⟩ := List.mem_map.1 hd
        dsimp only at e
        split at e
        · simp only [Prod.mk.injEq] at e
          have : r = j := e.1.symm.trans e.2.1
          rw [this] at hr
          exact hr
        · simp only [Prod.mk.injEq, Int.cast_zero, mul_zero, Int.cast_one, mul_one] at e
          exact absurd e.2.2.symm hc
  · intro h
    have : coreGeneral rows R L =
        .ok (R.zipIdx.map fun p => if P p.1 then (p.2, p.2, 1) else (0, 0, 0)) := by
      unfold coreGeneral
      rw [mapM_ok_iff]
      apply forall₂_of_getElem (by simp)
      intro i hi
      simp only [List.length_zipIdx] at hi
      simp only [List.getElem_zipIdx, Nat.zero_add, List.getElem_map, happ]
      by_cases hP : P R[i]
      · simp only [hP, if_true]
        rw [storeCol_of_mem hL (h i hi hP)]
        rfl
      · simp only [hP, if_false]
    unfold matrixFunctionCsr
    rw [hgen, hdiag, this]

end Verif
