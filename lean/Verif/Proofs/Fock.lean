import Verif.Spec.Fock
import Mathlib.Tactic.Ring
import Mathlib.Tactic.LinearCombination
import Mathlib.LinearAlgebra.Finsupp.Defs
/-! The specification satisfies the canonical anticommutation relations. -/

namespace Verif.Spec

theorem create_ket (i : ℕ) (S : Finset ℕ) :
    create i (ket S) = if i ∈ S then 0 else jwSign i S • ket (insert i S) := by
  simp [create, ket]

theorem annihilate_ket (i : ℕ) (S : Finset ℕ) :
    annihilate i (ket S) = if i ∈ S then jwSign i S • ket (S.erase i) else 0 := by
  simp [annihilate, ket]

theorem end_ext {f g : Module.End ℂ Fock} (h : ∀ S, f (ket S) = g (ket S)) : f = g := by
  apply Finsupp.lhom_ext'
  intro S
  apply LinearMap.ext_ring
  simpa [ket] using h S

theorem jwSign_sq (i : ℕ) (S : Finset ℕ) : jwSign i S * jwSign i S = 1 := by
  unfold jwSign
  rw [← pow_add, ← two_mul, pow_mul]
  simp

theorem jwSign_insert_self (i : ℕ) (S : Finset ℕ) : jwSign i (insert i S) = jwSign i S := by
  unfold jwSign
  congr 2
  ext x
  simp only [Finset.mem_filter, Finset.mem_insert]
  constructor
  · rintro ⟨rfl | h, h2⟩
    · omega
    · exact ⟨h, h2⟩
  · rintro ⟨h, h2⟩; exact ⟨Or.inr h, h2⟩

theorem jwSign_erase_self (i : ℕ) (S : Finset ℕ) : jwSign i (S.erase i) = jwSign i S := by
  unfold jwSign
  congr 2
  ext x
  simp only [Finset.mem_filter, Finset.mem_erase]
  constructor
  · rintro ⟨⟨_, h⟩, h2⟩; exact ⟨h, h2⟩
  · rintro ⟨h, h2⟩; exact ⟨⟨by omega, h⟩, h2⟩

theorem jwSign_insert (i j : ℕ) (S : Finset ℕ) (h : j ∉ S) :
    jwSign i (insert j S) = (if j < i then -1 else 1) * jwSign i S := by
  unfold jwSign
  rw [Finset.filter_insert]
  split
  · rw [Finset.card_insert_of_notMem (by simp [h]), pow_succ]; ring
  · simp

theorem jwSign_erase (i j : ℕ) (S : Finset ℕ) (h : j ∈ S) :
    jwSign i (S.erase j) = (if j < i then -1 else 1) * jwSign i S := by
  have := jwSign_insert i j (S.erase j) (by simp)
  rw [Finset.insert_erase h] at this
  rw [this, ← mul_assoc]
  split <;> simp

theorem create_create (i j : ℕ) : create i * create j + create j * create i = 0 := by
  apply end_ext
  intro S
  simp only [LinearMap.add_apply, Module.End.mul_apply, LinearMap.zero_apply, create_ket]
  by_cases hi : i ∈ S <;> by_cases hj : j ∈ S
  · simp [hi, hj]
  · simp [hi, hj, create_ket]
  · simp [hi, hj, create_ket]
  · simp only [hi, hj, if_false, map_smul, create_ket, Finset.mem_insert, or_false]
    by_cases hij : i = j
    · subst hij; simp
    · have hji : ¬ j = i := fun h => hij h.symm
      simp only [hij, hji, if_false, smul_smul, jwSign_insert i j S hj, jwSign_insert j i S hi]
      rw [Finset.insert_comm j i S, ← add_smul]
      have : jwSign j S * ((if j < i then -1 else 1) * jwSign i S) +
          jwSign i S * ((if i < j then -1 else 1) * jwSign j S) = 0 := by
        rcases Nat.lt_or_gt_of_ne hij with h | h
        · simp [h, Nat.lt_asymm h]; ring
        · simp [h, Nat.lt_asymm h]; ring
      rw [this, zero_smul]

theorem annihilate_annihilate (i j : ℕ) :
    annihilate i * annihilate j + annihilate j * annihilate i = 0 := by
  apply end_ext
  intro S
  simp only [LinearMap.add_apply, Module.End.mul_apply, LinearMap.zero_apply, annihilate_ket]
  by_cases hi : i ∈ S <;> by_cases hj : j ∈ S
  · simp only [hi, hj, if_true, map_smul, annihilate_ket, Finset.mem_erase, and_true]
    by_cases hij : i = j
    · subst hij; simp
    · have hji : ¬ j = i := fun h => hij h.symm
      simp only [ne_eq, hij, hji, not_false_iff, if_true, smul_smul, jwSign_erase i j S hj,
        jwSign_erase j i S hi]
      rw [Finset.erase_right_comm, ← add_smul]
      have : jwSign j S * ((if j < i then -1 else 1) * jwSign i S) +
          jwSign i S * ((if i < j then -1 else 1) * jwSign j S) = 0 := by
        rcases Nat.lt_or_gt_of_ne hij with h | h
        · simp [h, Nat.lt_asymm h]; ring
        · simp [h, Nat.lt_asymm h]; ring
      rw [this, zero_smul]
  · simp [hi, hj, annihilate_ket]
  · simp [hi, hj, annihilate_ket]
  · simp [hi, hj]

theorem annihilate_create (i j : ℕ) :
    annihilate i * create j + create j * annihilate i = if i = j then 1 else 0 := by
  apply end_ext
  intro S
  simp only [LinearMap.add_apply, Module.End.mul_apply, annihilate_ket, create_ket]
  by_cases hij : i = j
  · subst hij
    simp only [if_true, Module.End.one_apply]
    by_cases hi : i ∈ S
    · simp [hi, create_ket, smul_smul, jwSign_erase_self, jwSign_sq, Finset.insert_erase hi]
    · simp [hi, annihilate_ket, smul_smul, jwSign_insert_self, jwSign_sq]
  · have hji : ¬ j = i := fun h => hij h.symm
    simp only [hij, if_false, LinearMap.zero_apply]
    by_cases hi : i ∈ S <;> by_cases hj : j ∈ S
    · simp [hi, hj, create_ket, hji]
    · simp only [hi, hj, if_true, if_false, map_smul, annihilate_ket, create_ket,
        Finset.mem_insert, or_true, Finset.mem_erase, and_false, smul_smul,
        jwSign_insert i j S hj, jwSign_erase j i S hi]
      rw [Finset.erase_insert_of_ne hji, ← add_smul]
      have : jwSign j S * ((if j < i then -1 else 1) * jwSign i S) +
          jwSign i S * ((if i < j then -1 else 1) * jwSign j S) = 0 := by
        rcases Nat.lt_or_gt_of_ne hij with h | h
        · simp [h, Nat.lt_asymm h]; ring
        · simp [h, Nat.lt_asymm h]; ring
      rw [this, zero_smul]
    · simp [hi, hj]
    · simp [hi, hj, annihilate_ket, hij]

end Verif.Spec
