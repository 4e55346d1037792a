import Verif.Spec.Spin
import Mathlib.Data.Nat.Bitwise
import Mathlib.Algebra.BigOperators.Fin
import Mathlib.Data.Matrix.Mul
/-! Algebra of the one-site operators. -/

namespace Verif.Spec

theorem digit_eq_iff (a b j k : ℕ) : digit a j = digit b k ↔ a.testBit j = b.testBit k := by
  unfold digit
  rw [Fin.mk.injEq, ← Nat.toNat_testBit, ← Nat.toNat_testBit]
  cases a.testBit j <;> cases b.testBit k <;> simp

/-- spins of `b`, with spin `i` replaced by `s` -/
noncomputable def setDigit (n : ℕ) (b : Fin (2 ^ n)) (i : ℕ) (s : Fin 2) : ℕ :=
  if digit b i = s then b else b.1 ^^^ (2 ^ i)

theorem testBit_xor_pow (b i j : ℕ) :
    (b ^^^ (2 ^ i)).testBit j = if j = i then !b.testBit i else b.testBit j := by
  rw [Nat.testBit_xor, Nat.testBit_two_pow]
  by_cases h : j = i
  · subst h; simp
  · have : ¬ i = j := fun h' => h h'.symm
    simp [h, this]

theorem digit_setDigit_self (n : ℕ) (b : Fin (2 ^ n)) (i : ℕ) (s : Fin 2) :
    digit (setDigit n b i s) i = s := by
  unfold setDigit
  split
  · assumption
  · rename_i h
    have h2 : digit (b.1 ^^^ 2 ^ i) i ≠ digit b i := by
      rw [Ne, digit_eq_iff, testBit_xor_pow]
      simp
    revert h h2
    generalize digit (b.1 ^^^ 2 ^ i) i = u
    generalize digit b i = v
    revert u v s
    decide

theorem digit_setDigit_ne (n : ℕ) (b : Fin (2 ^ n)) (i j : ℕ) (s : Fin 2) (h : j ≠ i) :
    digit (setDigit n b i s) j = digit b j := by
  unfold setDigit
  split
  · rfl
  · rw [digit_eq_iff, testBit_xor_pow, if_neg h]

theorem setDigit_lt (n : ℕ) (b : Fin (2 ^ n)) (i : ℕ) (hi : i < n) (s : Fin 2) :
    setDigit n b i s < 2 ^ n := by
  unfold setDigit
  split
  · exact b.2
  · exact Nat.xor_lt_two_pow b.2 (Nat.pow_lt_pow_right (by norm_num) hi)

theorem eq_of_digits (n : ℕ) (a b : ℕ) (ha : a < 2 ^ n) (hb : b < 2 ^ n)
    (h : ∀ j < n, digit a j = digit b j) : a = b := by
  apply Nat.eq_of_testBit_eq
  intro j
  by_cases hj : j < n
  · exact (digit_eq_iff _ _ _ _).mp (h j hj)
  · rw [Nat.testBit_lt_two_pow (lt_of_lt_of_le ha (Nat.pow_le_pow_right (by norm_num) (by omega))),
      Nat.testBit_lt_two_pow (lt_of_lt_of_le hb (Nat.pow_le_pow_right (by norm_num) (by omega)))]

/-- multiplying by a one-site operator on the right only mixes two columns -/
theorem mul_siteOp (n i : ℕ) (hi : i < n) (M : Matrix (Fin (2 ^ n)) (Fin (2 ^ n)) ℂ)
    (A : Matrix (Fin 2) (Fin 2) ℂ) (a b : Fin (2 ^ n)) :
    (M * siteOp n i A) a b =
      ∑ s : Fin 2, M a ⟨setDigit n b i s, setDigit_lt n b i hi s⟩ * A s (digit b i) := by
  rw [Matrix.mul_apply]
  let e : Fin 2 → Fin (2 ^ n) := fun s => ⟨setDigit n b i s, setDigit_lt n b i hi s⟩
  have he : Function.Injective e := by
    intro s t h
    have : setDigit n b i s = setDigit n b i t := by simpa [e] using h
    rw [← digit_setDigit_self n b i s, this, digit_setDigit_self]
  rw [← Finset.sum_subset (Finset.subset_univ (Finset.univ.image e))]
  · rw [Finset.sum_image (fun x _ y _ h => he h)]
    apply Finset.sum_congr rfl
    intro s _
    congr 1
    unfold siteOp
    rw [Matrix.of_apply, if_pos]
    · simp only [e, digit_setDigit_self]
    · intro j _ hne
      simp only [e]
      exact digit_setDigit_ne n b i j s hne
  · intro c _ hc
    rw [Finset.mem_image] at hc
    push Not at hc
    have : siteOp n i A c b = 0 := by
      unfold siteOp
      rw [Matrix.of_apply, if_neg]
      intro hall
      apply hc (digit c i) (Finset.mem_univ _)
      apply Fin.ext
      simp only [e]
      apply eq_of_digits n _ _ (setDigit_lt n b i hi _) c.2
      intro j hj
      by_cases hji : j = i
      · subst hji; exact digit_setDigit_self n b j _
      · rw [digit_setDigit_ne n b i j _ hji]
        exact (hall j hj hji).symm
    rw [this, mul_zero]

theorem siteOp_mul (n i : ℕ) (hi : i < n) (A B : Matrix (Fin 2) (Fin 2) ℂ) :
    siteOp n i A * siteOp n i B = siteOp n i (A * B) := by
  ext a b
  rw [mul_siteOp n i hi]
  unfold siteOp
  simp only [Matrix.of_apply]
  by_cases h : ∀ j < n, j ≠ i → digit a j = digit b j
  · rw [if_pos h, Matrix.mul_apply]
    apply Finset.sum_congr rfl
    intro s _
    rw [if_pos, digit_setDigit_self]
    intro j hj hne
    rw [digit_setDigit_ne n b i j s hne]
    exact h j hj hne
  · rw [if_neg h]
    apply Finset.sum_eq_zero
    intro s _
    rw [if_neg, zero_mul]
    intro h'
    apply h
    intro j hj hne
    rw [h' j hj hne, digit_setDigit_ne n b i j s hne]

theorem siteOp_mul_ne (n i j : ℕ) (hj : j < n) (hij : i ≠ j)
    (A B : Matrix (Fin 2) (Fin 2) ℂ) (a b : Fin (2 ^ n)) [Decidable (∀ k < n, k ≠ i → k ≠ j → digit a k = digit b k)] :
    (siteOp n i A * siteOp n j B) a b =
      if ∀ k < n, k ≠ i → k ≠ j → digit a k = digit b k then
        A (digit a i) (digit b i) * B (digit a j) (digit b j) else 0 := by
  rw [mul_siteOp n j hj]
  unfold siteOp
  simp only [Matrix.of_apply]
  by_cases h : ∀ k < n, k ≠ i → k ≠ j → digit a k = digit b k
  · rw [if_pos h, Finset.sum_eq_single (digit a j)]
    · rw [if_pos, digit_setDigit_ne n b j i _ hij]
      intro k hk hki
      by_cases hkj : k = j
      · subst hkj; rw [digit_setDigit_self]
      · rw [digit_setDigit_ne n b j k _ hkj]; exact h k hk hki hkj
    · intro s _ hs
      rw [if_neg, zero_mul]
      intro h'
      have := h' j hj hij.symm
      rw [digit_setDigit_self] at this
      exact hs this.symm
    · intro h; exact absurd (Finset.mem_univ _) h
  · rw [if_neg h]
    apply Finset.sum_eq_zero
    intro s _
    rw [if_neg, zero_mul]
    intro h'
    apply h
    intro k hk hki hkj
    rw [h' k hk hki, digit_setDigit_ne n b j k s hkj]

theorem siteOp_comm (n i j : ℕ) (hi : i < n) (hj : j < n) (hij : i ≠ j)
    (A B : Matrix (Fin 2) (Fin 2) ℂ) : Commute (siteOp n i A) (siteOp n j B) := by
  classical
  ext a b
  rw [siteOp_mul_ne n i j hj hij, siteOp_mul_ne n j i hi hij.symm]
  have : (∀ k < n, k ≠ i → k ≠ j → digit a k = digit b k) ↔
      (∀ k < n, k ≠ j → k ≠ i → digit a k = digit b k) :=
    ⟨fun h k hk h1 h2 => h k hk h2 h1, fun h k hk h1 h2 => h k hk h2 h1⟩
  simp only [this]
  split
  · ring
  · rfl

theorem siteOp_one (n i : ℕ) (hi : i < n) : siteOp n i 1 = 1 := by
  ext a b
  unfold siteOp
  simp only [Matrix.of_apply, Matrix.one_apply]
  by_cases hab : a = b
  · subst hab; simp
  · rw [if_neg hab]
    split
    · rename_i h
      rw [if_neg]
      intro hd
      apply hab
      apply Fin.ext
      apply eq_of_digits n _ _ a.2 b.2
      intro j hj
      by_cases hji : j = i
      · subst hji; exact hd
      · exact h j hj hji
    · rfl

theorem siteOp_add (n i : ℕ) (A B : Matrix (Fin 2) (Fin 2) ℂ) :
    siteOp n i (A + B) = siteOp n i A + siteOp n i B := by
  ext a b
  unfold siteOp
  simp only [Matrix.of_apply, Matrix.add_apply]
  split <;> simp

theorem siteOp_smul (n i : ℕ) (c : ℂ) (A : Matrix (Fin 2) (Fin 2) ℂ) :
    siteOp n i (c • A) = c • siteOp n i A := by
  ext a b
  unfold siteOp
  simp only [Matrix.of_apply, Matrix.smul_apply]
  split <;> simp

theorem siteOp_sub (n i : ℕ) (A B : Matrix (Fin 2) (Fin 2) ℂ) :
    siteOp n i (A - B) = siteOp n i A - siteOp n i B := by
  rw [sub_eq_add_neg, siteOp_add, sub_eq_add_neg]
  congr 1
  have := siteOp_smul n i (-1) B
  simpa using this

theorem siteOp_conjTranspose (n i : ℕ) (A : Matrix (Fin 2) (Fin 2) ℂ) :
    (siteOp n i A).conjTranspose = siteOp n i A.conjTranspose := by
  ext a b
  unfold siteOp
  simp only [Matrix.of_apply, Matrix.conjTranspose_apply]
  have : (∀ j < n, j ≠ i → digit b j = digit a j) ↔ (∀ j < n, j ≠ i → digit a j = digit b j) :=
    ⟨fun h j hj hne => (h j hj hne).symm, fun h j hj hne => (h j hj hne).symm⟩
  simp only [this]
  split <;> simp

end Verif.Spec
