import Verif.Spec.Fock
import Verif.Model.MatrixRepr
import Mathlib.Data.Nat.Bitwise
import Mathlib.Algebra.Group.Nat.Even
/-! Bit patterns as occupation sets; the swap counter. -/

namespace Verif
open Spec

theorem mem_occ (i k : ℕ) : i ∈ occ k ↔ k.testBit i = true := by
  unfold occ
  simp only [Finset.mem_filter, Finset.mem_range, and_iff_right_iff_imp]
  intro h
  exact lt_of_lt_of_le Nat.lt_two_pow_self (Nat.ge_two_pow_of_testBit h)

theorem occ_injective : Function.Injective occ := by
  intro a b h
  apply Nat.eq_of_testBit_eq
  intro i
  have := congrArg (i ∈ ·) h
  simp only [mem_occ, eq_iff_iff] at this
  exact Bool.eq_iff_iff.mpr this

theorem and_mask_eq_zero (k i : ℕ) : k &&& (1 <<< i) = 0 ↔ i ∉ occ k := by
  rw [Nat.one_shiftLeft, Nat.and_two_pow, mem_occ]
  cases k.testBit i <;> simp

theorem and_mask_eq_mask (k i : ℕ) : k &&& (1 <<< i) = 1 <<< i ↔ i ∈ occ k := by
  rw [Nat.one_shiftLeft, Nat.and_two_pow, mem_occ]
  cases k.testBit i
  · simp
    exact (pow_pos (by norm_num) i).ne
  · simp

theorem occ_xor_insert (k i : ℕ) (h : i ∉ occ k) : occ (k ^^^ (1 <<< i)) = insert i (occ k) := by
  ext j
  rw [mem_occ] at h
  simp only [Finset.mem_insert, mem_occ, Nat.one_shiftLeft, Nat.testBit_xor, Nat.testBit_two_pow]
  by_cases hij : i = j
  · subst hij; simp [h]
  · have hji : ¬ j = i := fun h => hij h.symm
    simp [hij, hji]

theorem occ_xor_erase (k i : ℕ) (h : i ∈ occ k) : occ (k ^^^ (1 <<< i)) = (occ k).erase i := by
  ext j
  rw [mem_occ] at h
  simp only [Finset.mem_erase, mem_occ, Nat.one_shiftLeft, Nat.testBit_xor, Nat.testBit_two_pow]
  by_cases hij : i = j
  · subst hij; simp [h]
  · have hji : ¬ j = i := fun h => hij h.symm
    simp [hij, hji]

/-- a boolean sign as a complex number -/
def bsign (s : Bool) : ℂ := if s then -1 else 1

theorem bsign_xor (s t : Bool) : bsign (s ^^ t) = bsign s * bsign t := by
  cases s <;> cases t <;> simp [bsign]

theorem bsign_mul_self (s : Bool) : bsign s * bsign s = 1 := by cases s <;> simp [bsign]

theorem countSwap_succ (lo hi k : ℕ) (h : lo ≤ hi) (s : Bool) :
    countSwap lo (hi + 1) k s = (countSwap lo hi k s ^^ k.testBit hi) := by
  unfold countSwap
  rw [show hi + 1 - lo = (hi - lo) + 1 by omega, List.range'_concat, List.foldl_append]
  simp only [List.foldl_cons, List.foldl_nil, Nat.one_mul, Nat.one_shiftLeft]
  rw [show lo + (hi - lo) = hi by omega, Nat.and_two_pow]
  cases k.testBit hi <;> simp

theorem countSwap_self (lo k : ℕ) (s : Bool) : countSwap lo lo k s = s := by
  simp [countSwap]

/-- the counter toggles by the parity of the number of occupied states in `[lo, hi)` -/
theorem bsign_countSwap (lo hi k : ℕ) (h : lo ≤ hi) (s : Bool) :
    bsign (countSwap lo hi k s) =
      bsign s * (-1) ^ ((occ k).filter (fun p => lo ≤ p ∧ p < hi)).card := by
  induction hi, h using Nat.le_induction with
  | base =>
    rw [countSwap_self]
    have : (occ k).filter (fun p => lo ≤ p ∧ p < lo) = ∅ := by
      ext p; simp
    simp [this]
  | succ hi hle ih =>
    rw [countSwap_succ _ _ _ hle, bsign_xor, ih, mul_assoc]
    congr 1
    by_cases hb : k.testBit hi = true
    · have : (occ k).filter (fun p => lo ≤ p ∧ p < hi + 1) =
          insert hi ((occ k).filter (fun p => lo ≤ p ∧ p < hi)) := by
        ext p
        simp only [Finset.mem_filter, Finset.mem_insert, mem_occ]
        constructor
        · rintro ⟨h1, h2, h3⟩
          by_cases hp : p = hi
          · exact .inl hp
          · exact .inr ⟨h1, h2, by omega⟩
        · rintro (rfl | ⟨h1, h2, h3⟩)
          · exact ⟨hb, hle, by omega⟩
          · exact ⟨h1, h2, by omega⟩
      rw [this, Finset.card_insert_of_notMem (by simp), pow_succ]
      simp [hb, bsign]
    · have : (occ k).filter (fun p => lo ≤ p ∧ p < hi + 1) =
          (occ k).filter (fun p => lo ≤ p ∧ p < hi) := by
        ext p
        simp only [Finset.mem_filter, mem_occ]
        constructor
        · rintro ⟨h1, h2, h3⟩
          refine ⟨h1, h2, ?_⟩
          rcases Nat.lt_or_ge p hi with h | h
          · exact h
          · have : p = hi := by omega
            subst this
            exact absurd h1 hb
        · rintro ⟨h1, h2, h3⟩
          exact ⟨h1, h2, by omega⟩
      rw [this]
      simp only [Bool.not_eq_true] at hb
      simp [hb, bsign]

theorem bsign_countSwap_zero (i k : ℕ) (s : Bool) :
    bsign (countSwap 0 i k s) = bsign s * jwSign i (occ k) := by
  rw [bsign_countSwap 0 i k (Nat.zero_le _)]
  simp [jwSign]

end Verif
