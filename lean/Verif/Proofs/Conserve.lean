import Verif.Proofs.MatrixAlgebra
import Verif.Proofs.HilbertSpace
/-! Particle-number bookkeeping of the kernels. -/

namespace Verif
open Spec

/-- how many operators of type `o` act on the states `s` -/
def opCount (l : List (ℕ × Otype)) (o : Otype) (s : List ℕ) : ℕ :=
  (l.filter (fun p => decide (p.2 = o ∧ p.1 ∈ s))).length

theorem opCount_cons (i : ℕ) (o' : Otype) (l : List (ℕ × Otype)) (o : Otype) (s : List ℕ) :
    opCount ((i, o') :: l) o s = opCount l o s + if o' = o ∧ i ∈ s then 1 else 0 := by
  unfold opCount
  rw [List.filter_cons]
  by_cases h : o' = o ∧ i ∈ s
  · simp [h]
  · simp [h]

theorem filter_flip_length (s : List ℕ) (hs : s.Nodup) (k k' i : ℕ)
    (hk : ∀ j, j ≠ i → k'.testBit j = k.testBit j) (h0 : k.testBit i = false)
    (h1 : k'.testBit i = true) :
    (s.filter (fun j => k'.testBit j)).length =
      (s.filter (fun j => k.testBit j)).length + if i ∈ s then 1 else 0 := by
  induction s with
  | nil => simp
  | cons a s ih =>
    rw [List.nodup_cons] at hs
    have ih := ih hs.2
    by_cases ha : a = i
    · subst ha
      have : (if a ∈ s then 1 else 0) = 0 := by simp [hs.1]
      rw [this] at ih
      simp [h0, h1, ih]
    · have hia : ¬ i = a := fun h => ha h.symm
      have hmem : (i ∈ a :: s) ↔ i ∈ s := by simp [hia]
      simp only [List.filter_cons, hk a ha]
      simp only [hmem]
      split
      · simp only [List.length_cons, ih]; omega
      · exact ih

theorem applyRows_conserve (l : List (ℕ × Otype)) (s : List ℕ) (hs : s.Nodup) (k k' : ℕ)
    (b b' : Bool) (h : applyRows (l.map mkRow) k b = some (k', b')) :
    (s.filter (fun j => k'.testBit j)).length + opCount l .annihilation s =
      (s.filter (fun j => k.testBit j)).length + opCount l .creation s := by
  induction l generalizing k b with
  | nil =>
    simp only [List.map_nil, applyRows, Option.some.injEq, Prod.mk.injEq] at h
    simp [opCount, h.1]
  | cons p l ih =>
    simp only [List.map_cons, applyRows] at h
    split at h
    · rename_i hc
      have ih := ih _ _ h
      obtain ⟨i, o⟩ := p
      have hflip : ∀ j, j ≠ i → (k ^^^ (1 <<< i)).testBit j = k.testBit j := by
        intro j hj
        rw [Nat.testBit_xor, Nat.one_shiftLeft, Nat.testBit_two_pow]
        simp [Ne.symm hj]
      have hself : (k ^^^ (1 <<< i)).testBit i = !k.testBit i := by
        rw [Nat.testBit_xor, Nat.one_shiftLeft, Nat.testBit_two_pow]
        simp
      cases o with
      | creation =>
        simp only [mkRow, if_true] at hc ih
        rw [and_mask_eq_zero, mem_occ] at hc
        have h0 : k.testBit i = false := by simpa using hc
        have := filter_flip_length s hs k _ i hflip h0 (by rw [hself, h0]; rfl)
        rw [opCount_cons, opCount_cons]
        simp only [reduceCtorEq, false_and, true_and, if_false]
        omega
      | annihilation =>
        simp only [mkRow, reduceCtorEq, if_false] at hc ih
        rw [and_mask_eq_mask, mem_occ] at hc
        have := filter_flip_length s hs _ k i (fun j hj => (hflip j hj).symm)
          (by rw [hself, hc]; rfl) hc
        rw [opCount_cons, opCount_cons]
        simp only [reduceCtorEq, false_and, true_and, if_false]
        omega
    · cases h

/-- bits outside the term's states are untouched -/
theorem applyRows_support (l : List (ℕ × Otype)) (k k' : ℕ) (b b' : Bool)
    (h : applyRows (l.map mkRow) k b = some (k', b')) (j : ℕ) (hj : ∀ p ∈ l, p.1 ≠ j) :
    k'.testBit j = k.testBit j := by
  induction l generalizing k b with
  | nil =>
    simp only [List.map_nil, applyRows, Option.some.injEq, Prod.mk.injEq] at h
    rw [h.1]
  | cons p l ih =>
    simp only [List.map_cons, applyRows] at h
    split at h
    · rw [ih _ _ h (fun q hq => hj q (by simp [hq]))]
      have := hj p (by simp)
      simp only [mkRow]
      rw [Nat.testBit_xor, Nat.one_shiftLeft, Nat.testBit_two_pow]
      simp [this]
    · cases h

end Verif
