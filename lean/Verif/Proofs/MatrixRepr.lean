import Verif.Proofs.Bits
import Verif.Proofs.Fock
import Verif.Proofs.PyLemmas
import Verif.Spec.FockTerm
import Mathlib.Algebra.BigOperators.Fin
/-! The kernels simulate Fock-space operators. -/

set_option linter.unusedSimpArgs false

namespace Verif
open Spec

/-- the array row of operator `(i, o)` -/
def mkRow (p : ℕ × Otype) : TermRow :=
  ⟨p.1, 1 <<< p.1, if p.2 = .creation then 0 else 1 <<< p.1⟩

theorem fockOp_row (p : ℕ × Otype) (k : ℕ) (s : Bool) :
    bsign s • fockOp p.2 p.1 (ket (occ k)) =
      if k &&& (mkRow p).mask = (mkRow p).criterion then
        bsign (countSwap 0 (mkRow p).index k s) • ket (occ (k ^^^ (mkRow p).mask))
      else 0 := by
  obtain ⟨i, o⟩ := p
  cases o with
  | creation =>
    simp only [fockOp, create_ket, mkRow, if_true, and_mask_eq_zero]
    by_cases h : i ∈ occ k
    · simp [h]
    · simp only [h, if_false, not_false_iff, if_true, occ_xor_insert k i h, bsign_countSwap_zero,
        smul_smul]
  | annihilation =>
    simp only [fockOp, annihilate_ket, mkRow, reduceCtorEq, if_false, and_mask_eq_mask]
    by_cases h : i ∈ occ k
    · simp only [h, if_true, occ_xor_erase k i h, bsign_countSwap_zero, smul_smul]
    · simp [h]

theorem applyRows_spec (l : List (ℕ × Otype)) (k : ℕ) (s : Bool) :
    bsign s • fockProduct l.reverse (ket (occ k)) =
      match applyRows (l.map mkRow) k s with
      | some (k', s') => bsign s' • ket (occ k')
      | none => 0 := by
  induction l generalizing k s with
  | nil => simp [fockProduct, applyRows]
  | cons p l ih =>
    have hprod : fockProduct (p :: l).reverse = fockProduct l.reverse * fockOp p.2 p.1 := by
      simp [fockProduct]
    rw [hprod, Module.End.mul_apply, ← map_smul, fockOp_row]
    simp only [List.map_cons, applyRows]
    split
    · rw [map_smul, ih]
    · simp

theorem termRow_ok {p : ℤ × Otype} {r : TermRow} (h : termRow p = .ok r) :
    0 ≤ p.1 ∧ r = mkRow (p.1.toNat, p.2) := by
  unfold termRow at h
  split at h
  · cases h
  · cases h
    exact ⟨by omega, rfl⟩

theorem termArray_ok {term : List (ℤ × Otype)} {rows : List TermRow}
    (h : termArray term = .ok rows) :
    rows = (term.map (fun p => (p.1.toNat, p.2))).map mkRow ∧ term ≠ [] ∧
      ∀ p ∈ term, 0 ≤ p.1 ∧ p.1 < 64 := by
  unfold termArray at h
  rw [bind_ok_iff] at h
  obtain ⟨rs, hrs, h⟩ := h
  rw [mapM_ok_iff] at hrs
  have hrows : rs = (term.map (fun p => (p.1.toNat, p.2))).map mkRow := by
    apply List.ext_getElem
    · simp [forall₂_length hrs]
    · intro i h1 h2
      have := termRow_ok (forall₂_getElem hrs i (by simpa using h2))
      rw [this.2]; simp
  split at h
  · cases h
  · rename_i hany
    split at h
    · cases h
    · rename_i hne
      cases h
      refine ⟨hrows, ?_, ?_⟩
      · rintro rfl
        exact hne (by simpa using hrows)
      · intro p hp
        obtain ⟨i, hi, rfl⟩ := List.mem_iff_getElem.mp hp
        have h0 := (termRow_ok (forall₂_getElem hrs i hi)).1
        refine ⟨h0, ?_⟩
        by_contra hcon
        apply hany
        rw [List.any_eq_true]
        refine ⟨mkRow (term[i].1.toNat, term[i].2), ?_, ?_⟩
        · rw [hrows]
          simp only [List.map_map, List.mem_map]
          exact ⟨_, hp, rfl⟩
        · simp only [mkRow, Nat.one_shiftLeft, decide_eq_true_eq]
          exact Nat.pow_le_pow_right (by norm_num) (by omega)

theorem termArray_of_valid {term : List (ℤ × Otype)} (hne : term ≠ [])
    (h : ∀ p ∈ term, 0 ≤ p.1 ∧ p.1 < 64) :
    termArray term = .ok ((term.map (fun p => (p.1.toNat, p.2))).map mkRow) := by
  have hm : term.mapM termRow = .ok ((term.map (fun p => (p.1.toNat, p.2))).map mkRow) := by
    rw [mapM_ok_iff]
    apply forall₂_of_getElem (by simp)
    intro i hi
    have := h _ (List.getElem_mem hi)
    simp only [List.getElem_map, termRow, not_lt.mpr this.1, if_false]
    rfl
  unfold termArray
  rw [hm]
  simp only [bind, Except.bind]
  rw [if_neg, if_neg]
  · rfl
  · simpa using hne
  · rw [List.any_eq_true]
    rintro ⟨r, hr, hmask⟩
    simp only [List.map_map, List.mem_map] at hr
    obtain ⟨p, hp, rfl⟩ := hr
    simp only [Function.comp_apply, mkRow, Nat.one_shiftLeft, decide_eq_true_eq] at hmask
    have := h p hp
    rw [Nat.pow_le_pow_iff_right (by norm_num)] at hmask
    omega

/-! ### binary search -/

/-- ascending, with indices -/
def SortedAsc (a : List ℕ) : Prop := a.Pairwise (· < ·)

theorem searchsortedAux_spec (a : List ℕ) (v : ℕ) (hs : a.Pairwise (· ≤ ·)) (fuel lo hi : ℕ)
    (hfuel : hi - lo ≤ fuel) (hhi : hi ≤ a.length) (hlohi : lo ≤ hi)
    (hlo : ∀ k (hk : k < a.length), k < lo → a[k] < v)
    (hup : ∀ k (hk : k < a.length), hi ≤ k → v ≤ a[k]) :
    let r := searchsortedAux a v fuel lo hi
    r ≤ a.length ∧ (∀ k (hk : k < a.length), k < r → a[k] < v) ∧
      (∀ k (hk : k < a.length), r ≤ k → v ≤ a[k]) := by
  induction fuel generalizing lo hi with
  | zero =>
    have : lo = hi := by omega
    subst this
    exact ⟨hhi, hlo, hup⟩
  | succ fuel ih =>
    rw [searchsortedAux]
    by_cases h : lo < hi
    · rw [if_pos h]
      simp only
      generalize hmid : (lo + hi) / 2 = mid
      have hm : mid < a.length := by omega
      have hget : a.getD mid 0 = a[mid] := by
        simp [List.getD_eq_getElem?_getD, List.getElem?_eq_getElem hm]
      rw [hget]
      by_cases hlt : a[mid] < v
      · rw [if_pos hlt]
        apply ih (mid + 1) hi (by omega) hhi (by omega) ?_ hup
        intro k hk hkm
        have h1 : a[k] ≤ a[mid] := by
          rcases Nat.lt_or_ge k mid with h | h
          · exact List.pairwise_iff_getElem.mp hs k mid hk hm h
          · have : k = mid := by omega
            subst this; exact le_refl _
        omega
      · rw [if_neg hlt]
        apply ih lo mid (by omega) (by omega) (by omega) hlo
        intro k hk hkm
        have h1 : a[mid] ≤ a[k] := by
          rcases Nat.lt_or_ge mid k with h | h
          · exact List.pairwise_iff_getElem.mp hs mid k hm hk h
          · have : k = mid := by omega
            subst this; exact le_refl _
        omega
    · rw [if_neg h]
      have : lo = hi := by omega
      subst this
      exact ⟨hhi, hlo, hup⟩

theorem searchsorted_found (a : List ℕ) (hs : a.Pairwise (· < ·)) (i : ℕ) (hi : i < a.length) :
    searchsorted a a[i] = i := by
  have := searchsortedAux_spec a a[i] (hs.imp (fun h => Nat.le_of_lt h)) a.length 0 a.length
    (by omega) (Nat.le_refl _)
    (Nat.zero_le _) (by intros; omega) (by intros; omega)
  obtain ⟨h1, h2, h3⟩ := this
  change (searchsorted a a[i]) ≤ _ at h1
  change ∀ k (hk : k < a.length), k < searchsorted a a[i] → _ at h2
  change ∀ k (hk : k < a.length), searchsorted a a[i] ≤ k → _ at h3
  rcases Nat.lt_trichotomy (searchsorted a a[i]) i with h | h | h
  · have h4 := h3 (searchsorted a a[i]) (by omega) (Nat.le_refl _)
    have h5 := List.pairwise_iff_getElem.mp hs _ i (by omega) hi h
    omega
  · exact h
  · have := h2 i hi h
    omega

theorem storeCol_ok {left : List ℕ} {i k : ℕ} {s : Bool} {col : Col}
    (h : storeCol left i k s = .ok col) :
    ∃ r, left[r]? = some k ∧ col = (r, i, if s then -1 else 1) := by
  unfold storeCol at h
  simp only at h
  split at h
  · rename_i hc
    cases h
    exact ⟨_, hc.2, rfl⟩
  · cases h

theorem storeCol_of_mem {left : List ℕ} (hs : left.Pairwise (· < ·)) {r k : ℕ}
    (hr : left[r]? = some k) (i : ℕ) (s : Bool) :
    storeCol left i k s = .ok (r, i, if s then -1 else 1) := by
  obtain ⟨hr', rfl⟩ := List.getElem?_eq_some_iff.mp hr
  unfold storeCol
  simp only [searchsorted_found left hs r hr']
  rw [if_pos ⟨by omega, hr⟩]

theorem storeCol_error {left : List ℕ} {i k : ℕ} {s : Bool} {e : PyErr}
    (h : storeCol left i k s = .error e) : e = .keyError := by
  unfold storeCol at h
  simp only at h
  split at h <;> cases h
  rfl

theorem storeCol_error_of_not_mem {left : List ℕ} {i k : ℕ} {s : Bool} (h : k ∉ left) :
    storeCol left i k s = .error .keyError := by
  unfold storeCol
  simp only
  rw [if_neg]
  rintro ⟨_, h2⟩
  exact h (List.mem_of_getElem? h2)

/-! ### columns -/

/-- what a kernel stores for a ket that the operator maps to `res` -/
def ColFor (left : List ℕ) (j : ℕ) (res : Option (ℕ × Bool)) (col : Col) : Prop :=
  match res with
  | none => col = (0, 0, 0)
  | some (k, s) => ∃ r, left[r]? = some k ∧ col = (r, j, if s then -1 else 1)

theorem coreGeneral_ok {rows : List TermRow} {right left : List ℕ} {data : List Col}
    (h : coreGeneral rows right left = .ok data) :
    data.length = right.length ∧
    ∀ j (hj : j < right.length) (hd : j < data.length),
      ColFor left j (applyRows rows.reverse right[j] false) data[j] := by
  unfold coreGeneral at h
  have hlen := mapM_ok_length h
  simp only [List.length_zipIdx] at hlen
  refine ⟨hlen.symm, ?_⟩
  intro j hj hd
  have := mapM_ok_getElem h j (by simpa using hj)
  simp only [List.getElem_zipIdx, Nat.zero_add] at this
  unfold ColFor
  split at this
  · rename_i k s heq
    rw [heq]
    exact storeCol_ok this
  · rename_i heq
    rw [heq]
    exact (Except.ok.inj this).symm

/-- The stored entries summed. -/
theorem get_of_data (data : List Col) (c : ℂ) (r j : ℕ) (n m : ℕ) [DecidablePred fun e : ℕ × ℕ × ℂ => e.2.2 ≠ 0] :
    Csr.get ⟨n, m, (data.map (fun d => (d.1, d.2.1, c * (d.2.2 : ℂ)))).filter
        (fun e => e.2.2 ≠ 0)⟩ r j =
      (data.map (fun d => if d.1 = r ∧ d.2.1 = j then c * (d.2.2 : ℂ) else 0)).sum := by
  unfold Csr.get
  simp only
  induction data with
  | nil => simp
  | cons d data ih =>
    simp only [List.map_cons, List.sum_cons, ← ih, List.filter_cons]
    by_cases h1 : c * (d.2.2 : ℂ) = 0
    · simp only [h1, ne_eq, not_true_eq_false, decide_false, Bool.false_eq_true, if_false, ite_self,
        zero_add]
    · by_cases h2 : d.1 = r ∧ d.2.1 = j
      · simp [h1, h2, List.filter_cons]
      · simp [h1, h2, List.filter_cons]

theorem sum_data_eq (right left : List ℕ) (res : ℕ → Option (ℕ × Bool)) (data : List Col) (c : ℂ)
    (hlen : data.length = right.length)
    (hcol : ∀ j (hd : j < data.length), ColFor left j (res j) data[j])
    (hnd : left.Nodup) (r j : ℕ) (hr : r < left.length) (hj : j < right.length) :
    (data.map (fun d => if d.1 = r ∧ d.2.1 = j then c * (d.2.2 : ℂ) else 0)).sum =
      match res j with
      | some (k, s) => if k = left[r] then c * bsign s else 0
      | none => 0 := by
  have hj' : j < data.length := by omega
  rw [← Fin.sum_univ_fun_getElem]
  rw [Finset.sum_eq_single (⟨j, hj'⟩ : Fin data.length)]
  · have := hcol j hj'
    unfold ColFor at this
    cases hres : res j with
    | none =>
      rw [hres] at this
      simp only at this
      simp [this]
    | some p =>
      obtain ⟨k, s⟩ := p
      rw [hres] at this
      simp only at this
      obtain ⟨r', hr', hd⟩ := this
      obtain ⟨hr'', rfl⟩ := List.getElem?_eq_some_iff.mp hr'
      simp only [Fin.getElem_fin, hd, and_true]
      by_cases hrr : r' = r
      · subst hrr
        cases s <;> simp [bsign]
      · rw [if_neg hrr, if_neg]
        intro heq
        exact hrr ((List.Nodup.getElem_inj_iff hnd).mp heq)
  · intro b _ hb
    have := hcol b.1 b.2
    unfold ColFor at this
    cases hres : res b.1 with
    | none =>
      rw [hres] at this
      simp only at this
      simp [this]
    | some p =>
      obtain ⟨k, s⟩ := p
      rw [hres] at this
      simp only at this
      obtain ⟨r', hr', hd⟩ := this
      rw [hd]
      rw [if_neg]
      rintro ⟨_, h2⟩
      exact hb (Fin.ext h2)
  · intro h; exact absurd (Finset.mem_univ _) h

/-- the matrix element read off the simulated operator -/
theorem matrixElement_of_apply (term : List (ℕ × Otype)) (k l : ℕ) :
    matrixElement (fockProduct term) (occ l) (occ k) =
      match applyRows (term.map mkRow).reverse k false with
      | some (k', s) => if k' = l then bsign s else 0
      | none => 0 := by
  have := applyRows_spec term.reverse k false
  rw [List.reverse_reverse, List.map_reverse] at this
  unfold matrixElement
  have hb : bsign false = 1 := rfl
  rw [hb, one_smul] at this
  rw [this]
  cases applyRows (term.map mkRow).reverse k false with
  | none => simp
  | some p =>
    obtain ⟨k', s⟩ := p
    simp only [ket, Finsupp.smul_apply, smul_eq_mul, Finsupp.single_apply]
    by_cases h : k' = l
    · simp [h]
    · simp [h, occ_injective.ne h]

end Verif
