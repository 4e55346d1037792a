import Verif.Proofs.PandC
/-!
# C61: `Permutation` and `Combination`

The exact counts are Mathlib's `Nat.descFactorial n k` (the number of ordered selections,
`n!/(n-k)!`), `Nat.choose n k`, `n ^ k` and `Nat.choose (n + k - 1) k`.  The code divides
factorials in double precision, so the property as stated is false (`C61_violations`); what holds
is stated below.
-/

set_option exponentiation.threshold 1100

namespace Verif

/-- **C61** (arguments).  With or without repetition, arguments that are not ints, a negative `n`,
and a `k` outside `0..n` raise AssertionError. -/
theorem C61_invalid_arguments_rejected (n k : CountArg) (r : Bool)
    (h : ¬ ∃ a b : ℕ, n = .int a ∧ k = .int b ∧ b ≤ a) :
    permutation n k r = raise .assertionError ∧ combination n k r = raise .assertionError := by
  have hc : checkNK n k = raise .assertionError := by
    cases n with
    | other => rfl
    | int n =>
      cases k with
      | other => rfl
      | int k =>
        by_cases h1 : 0 ≤ n
        · by_cases h2 : 0 ≤ k
          · by_cases h3 : k ≤ n
            · exact absurd ⟨n.toNat, k.toNat, by simp [h1], by simp [h2], by omega⟩ h
            · simp [checkNK, pyAssert, h1, h2, h3, bind, Except.bind]
          · simp [checkNK, pyAssert, h1, h2, bind, Except.bind]
        · simp [checkNK, pyAssert, h1, bind, Except.bind]
  simp [permutation, combination, hc, bind, Except.bind]

/-- **C61** (permutations, all valid arguments).  With repetition the count is always exact.
Without repetition the call returns the exact count if and only if that count is a double; it
raises only OverflowError, and exactly when the count rounds to `2^1024` or more; whatever it
returns is within a relative `2^-52` of the count; and it is exact for every `n <= 22`. -/
theorem C61_permutation_partial (n k : ℕ) (h : k ≤ n) :
    permutation (.int n) (.int k) true = .ok ((n ^ k : ℕ) : ℤ) ∧
    (permutation (.int n) (.int k) false = .ok (n.descFactorial k : ℕ) ↔
      IsDouble (n.descFactorial k : ℕ)) ∧
    (∀ e, permutation (.int n) (.int k) false = raise e ↔
      e = .overflowError ∧ 2 ^ (1024 : ℕ) ≤ flRat (n.descFactorial k : ℕ)) ∧
    (∀ r, permutation (.int n) (.int k) false = .ok r →
      |(r : ℚ) - n.descFactorial k| ≤ n.descFactorial k / 2 ^ 52) ∧
    (n ≤ 22 → permutation (.int n) (.int k) false = .ok (n.descFactorial k : ℕ)) := by
  obtain ⟨m, hm⟩ := flRat_int_is_int (n.descFactorial k : ℕ)
  rw [Int.cast_natCast] at hm
  have ht : truncRat (flRat ((n.descFactorial k : ℕ) : ℚ)) = m := by rw [hm, truncRat_int]
  have hnn : 0 ≤ flRat ((n.descFactorial k : ℕ) : ℚ) := flRat_nonneg (by positivity)
  have hiff : permutation (.int n) (.int k) false = .ok (n.descFactorial k : ℕ) ↔
      IsDouble (n.descFactorial k : ℕ) := by
    rw [permutation_eval h, ht]
    constructor
    · intro h1
      split at h1
      · cases h1
      · rename_i h2
        simp only [Except.ok.injEq] at h1
        have h3 : flRat ((n.descFactorial k : ℕ) : ℚ) = (n.descFactorial k : ℕ) := by
          rw [hm, h1]; simp
        refine ⟨h3, ?_⟩
        rw [abs_of_nonneg (by positivity)]
        rw [h3] at h2
        exact not_le.mp h2
    · intro h1
      have h2 := h1.2
      rw [abs_of_nonneg (by positivity)] at h2
      rw [if_neg (by rw [h1.1]; exact not_le.mpr h2)]
      have h3 := h1.1
      rw [hm] at h3
      have : m = (n.descFactorial k : ℕ) := by exact_mod_cast h3
      rw [this]
  refine ⟨?_, hiff, ?_, ?_, ?_⟩
  · simp [permutation, checkNK_nat h, bind, Except.bind, pure, Except.pure]
  · intro e
    rw [permutation_eval h]
    split
    · rename_i h1
      constructor
      · intro h2; cases h2; exact ⟨rfl, h1⟩
      · rintro ⟨rfl, -⟩; rfl
    · rename_i h1
      constructor
      · intro h2; cases h2
      · rintro ⟨-, h2⟩; exact absurd h2 h1
  · intro r hr
    rw [permutation_eval h, ht] at hr
    split at hr
    · cases hr
    · simp only [Except.ok.injEq] at hr
      subst hr
      rw [← hm]
      have h1 : (1 : ℚ) ≤ (n.descFactorial k : ℕ) := by
        exact_mod_cast Nat.descFactorial_pos.mpr h
      obtain ⟨a, b⟩ := flRat_rel h1
      rw [abs_le]
      constructor
      · linarith [mul_one_sub ((n.descFactorial k : ℕ) : ℚ) (1 / 2 ^ 52)]
      · linarith [mul_one_add ((n.descFactorial k : ℕ) : ℚ) (1 / 2 ^ 52)]
  · intro h22
    exact hiff.mpr (isDouble_of_fits (fits_desc n h22 k h))

theorem choose_pipeline {n k : ℕ} (h : k ≤ n) :
    n.choose k * (k.factorial * (n - k).factorial) = n.factorial := by
  rw [← mul_assoc]; exact Nat.choose_mul_factorial_mul_factorial h

theorem quot_desc {a b : ℕ} (h : b ≤ a) :
    (a.factorial : ℚ) / b.factorial = (a.descFactorial (a - b) : ℕ) := by
  have := perm_quot (n := a) (k := a - b) (by omega)
  rw [Nat.sub_sub_self h] at this
  rw [← this]
  push_cast
  rfl

theorem combination_false {n k : ℕ} (h : k ≤ n) : combination (.int n) (.int k) false =
    let x := flRat ((n.factorial : ℚ) / k.factorial)
    let y := flRat ((n - k).factorial : ℚ)
    if 2 ^ (1024 : ℕ) ≤ x ∨ 2 ^ (1024 : ℕ) ≤ y ∨ 2 ^ (1024 : ℕ) ≤ flRat (x / y) then
      raise .overflowError
    else .ok (truncRat (flRat (x / y))) := by
  rw [← comb_eval n k (n - k)]
  have hc : ((n : ℤ) - (k : ℤ)) = ((n - k : ℕ) : ℤ) := by omega
  simp only [combination, checkNK_nat h, bind, Except.bind, Bool.false_eq_true, if_false, hc]

theorem combination_true {n k : ℕ} (h : k ≤ n) (hn : 1 ≤ n) : combination (.int n) (.int k) true =
    let x := flRat (((n + k - 1).factorial : ℚ) / k.factorial)
    let y := flRat ((n - 1).factorial : ℚ)
    if 2 ^ (1024 : ℕ) ≤ x ∨ 2 ^ (1024 : ℕ) ≤ y ∨ 2 ^ (1024 : ℕ) ≤ flRat (x / y) then
      raise .overflowError
    else .ok (truncRat (flRat (x / y))) := by
  rw [← comb_eval (n + k - 1) k (n - 1)]
  have hc : ((n : ℤ) - 1) = ((n - 1 : ℕ) : ℤ) := by omega
  have hd : ((n : ℤ) + (k : ℤ) - 1) = ((n + k - 1 : ℕ) : ℤ) := by omega
  simp only [combination, checkNK_nat h, bind, Except.bind, if_true, hc, hd]

/-- what the pipeline returns for a count `m < 2^49` -/
theorem pipeline_close {a b c m : ℕ} (hm : m * (b.factorial * c.factorial) = a.factorial)
    (hm1 : 1 ≤ m) (hlt : m < 2 ^ 49) {r : ℤ}
    (hr : (let x := flRat ((a.factorial : ℚ) / b.factorial)
    let y := flRat (c.factorial : ℚ)
    if 2 ^ (1024 : ℕ) ≤ x ∨ 2 ^ (1024 : ℕ) ≤ y ∨ 2 ^ (1024 : ℕ) ≤ flRat (x / y) then
      (raise .overflowError : Py ℤ)
    else .ok (truncRat (flRat (x / y)))) = .ok r) : r = m ∨ r = m - 1 := by
  have hb : (0 : ℚ) < (b.factorial : ℕ) := by exact_mod_cast Nat.factorial_pos _
  have hc : (1 : ℚ) ≤ (c.factorial : ℕ) := by exact_mod_cast Nat.factorial_pos _
  have hm1' : (1 : ℚ) ≤ m := by exact_mod_cast hm1
  have hA : (a.factorial : ℚ) / b.factorial = m * c.factorial := by
    rw [div_eq_iff hb.ne', ← hm]; push_cast; ring
  simp only at hr
  split at hr
  · cases hr
  · simp only [Except.ok.injEq] at hr
    subst hr
    rw [hA]
    obtain ⟨h1, h2⟩ := comb_rel (A := m * c.factorial) hc (by nlinarith)
    rw [mul_div_cancel_right₀ _ (by linarith)] at h1 h2
    exact trunc_close hlt h1 h2

/-- **C61** (combinations, all valid arguments).  The call is exact whenever `n!/k!`, `(n-k)!` and
the count are doubles, in particular for every `n <= 22`; the only exception is OverflowError; and
whenever it returns, for a count below `2^49`, the value is the count or one less than it. -/
theorem C61_combination_partial (n k : ℕ) (h : k ≤ n) :
    (IsDouble ((n.factorial : ℚ) / k.factorial) → IsDouble ((n - k).factorial : ℚ) →
      IsDouble (n.choose k : ℚ) →
      combination (.int n) (.int k) false = .ok (n.choose k : ℕ)) ∧
    (n ≤ 22 → combination (.int n) (.int k) false = .ok (n.choose k : ℕ)) ∧
    (∀ e, combination (.int n) (.int k) false = raise e → e = .overflowError) ∧
    (∀ r, combination (.int n) (.int k) false = .ok r → n.choose k < 2 ^ 49 →
      r = n.choose k ∨ r = n.choose k - 1) := by
  have hex : IsDouble ((n.factorial : ℚ) / k.factorial) → IsDouble ((n - k).factorial : ℚ) →
      IsDouble (n.choose k : ℚ) →
      combination (.int n) (.int k) false = .ok (n.choose k : ℕ) := by
    intro h1 h2 h3
    rw [combination_false h]
    exact comb_exact _ (choose_pipeline h) h1 h2 h3
  refine ⟨hex, ?_, ?_, ?_⟩
  · intro h22
    refine hex ?_ ?_ ?_
    · rw [quot_desc h]
      exact isDouble_of_fits (fits_desc n h22 (n - k) (by omega))
    · exact isDouble_of_fits (fits_fact (n - k) (by omega))
    · exact isDouble_of_fits (fits_choose n h22 k h)
  · intro e he
    rw [combination_false h] at he
    simp only at he
    split at he
    · cases he; rfl
    · cases he
  · intro r hr hlt
    rw [combination_false h] at hr
    exact pipeline_close (choose_pipeline h) (Nat.choose_pos h) hlt hr

/-- **C61** (combinations with repetition, all valid arguments with `n >= 1`). -/
theorem C61_combination_repeat_partial (n k : ℕ) (h : k ≤ n) (hn : 1 ≤ n) :
    (n + k - 1 ≤ 22 →
      combination (.int n) (.int k) true = .ok ((n + k - 1).choose k : ℕ)) ∧
    (∀ e, combination (.int n) (.int k) true = raise e → e = .overflowError) ∧
    (∀ r, combination (.int n) (.int k) true = .ok r → (n + k - 1).choose k < 2 ^ 49 →
      r = (n + k - 1).choose k ∨ r = (n + k - 1).choose k - 1) := by
  have hk : k ≤ n + k - 1 := by omega
  have hp := choose_pipeline hk
  have hs : n + k - 1 - k = n - 1 := by omega
  rw [hs] at hp
  refine ⟨?_, ?_, ?_⟩
  · intro h22
    rw [combination_true h hn]
    refine comb_exact _ hp ?_ ?_ ?_
    · rw [quot_desc hk]
      exact isDouble_of_fits (fits_desc _ h22 _ (by omega))
    · exact isDouble_of_fits (fits_fact _ (by omega))
    · exact isDouble_of_fits (fits_choose _ h22 _ hk)
  · intro e he
    rw [combination_true h hn] at he
    simp only at he
    split at he
    · cases he; rfl
    · cases he
  · intro r hr hlt
    rw [combination_true h hn] at hr
    exact pipeline_close hp (Nat.choose_pos hk) hlt hr

/-- **C61** is false of the code: `Combination(24, 1)` is 23, `Permutation(23, 19)` is off by 65536,
`Combination(0, 0, repeat=True)` raises ValueError (the count is 1) and `Combination(171, 0)`
raises OverflowError (the count is 1). -/
theorem C61_violations :
    (combination (.int 24) (.int 1) false = .ok 23 ∧ Nat.choose 24 1 = 24) ∧
    (permutation (.int 23) (.int 19) false = .ok (Nat.descFactorial 23 19 + 65536)) ∧
    combination (.int 0) (.int 0) true = raise .valueError ∧
    combination (.int 171) (.int 0) false = raise .overflowError := by
  refine ⟨⟨?_, by decide⟩, ?_, ?_, ?_⟩
  · have := combination_false (n := 24) (k := 1) (by norm_num)
    have f1 : flRat (((24 : ℕ).factorial : ℚ) / (1 : ℕ).factorial) = 620448401733239409999872 := by
      have hv : (((24 : ℕ).factorial : ℚ) / (1 : ℕ).factorial) = 620448401733239439360000 := by
        norm_num [Nat.factorial]
      rw [hv, flRat_eval _ 27 4622700823346074 (by norm_num) (by norm_num) (by norm_num)]
      · norm_num
      · unfold roundHalfEven
        have : ⌊(620448401733239439360000 : ℚ) / 2 ^ (27 : ℤ)⌋ = 4622700823346074 := by
          rw [Int.floor_eq_iff]; norm_num
        rw [this]; norm_num
    have f2 : flRat (((24 - 1 : ℕ)).factorial : ℚ) = 25852016738884978212864 := by
      have hv : (((24 - 1 : ℕ)).factorial : ℚ) = 25852016738884976640000 := by
        norm_num [Nat.factorial]
      rw [hv, flRat_eval _ 22 6163601097794766 (by norm_num) (by norm_num) (by norm_num)]
      · norm_num
      · unfold roundHalfEven
        have : ⌊(25852016738884976640000 : ℚ) / 2 ^ (22 : ℤ)⌋ = 6163601097794765 := by
          rw [Int.floor_eq_iff]; norm_num
        rw [this]; norm_num
    have f3 : flRat ((620448401733239409999872 : ℚ) / 25852016738884978212864) =
        6755399441055743 * 2 ^ (-48 : ℤ) := by
      rw [flRat_eval _ (-48) 6755399441055743 (by norm_num) (by norm_num) (by norm_num)]
      · norm_num
      · unfold roundHalfEven
        have : ⌊((620448401733239409999872 : ℚ) / 25852016738884978212864) / 2 ^ (-48 : ℤ)⌋ =
            6755399441055743 := by
          rw [Int.floor_eq_iff]; norm_num
        rw [this]; norm_num
    have big : (2 : ℚ) ^ 100 ≤ 2 ^ 1024 := pow_le_pow_right₀ (by norm_num) (by norm_num)
    simp only [f1, f2, f3] at this
    rw [if_neg] at this
    · refine this.trans ?_
      congr 1
      unfold truncRat
      rw [if_pos (by norm_num), Int.floor_eq_iff]
      norm_num
    · generalize (2 : ℚ) ^ 1024 = t at *
      rintro (h | h | h)
      · have := big.trans h; norm_num at this
      · have := big.trans h; norm_num at this
      · have := big.trans h; norm_num at this
  · have h1 := permutation_eval (n := 23) (k := 19) (by norm_num)
    have hv : ((Nat.descFactorial 23 19 : ℕ) : ℚ) = 1077167364120207360000 := by
      norm_num [Nat.descFactorial]
    have f1 : flRat (1077167364120207360000 : ℚ) = ((1077167364120207425536 : ℤ) : ℚ) := by
      rw [flRat_eval _ 17 8218134797059688 (by norm_num) (by norm_num) (by norm_num)]
      · norm_num
      · unfold roundHalfEven
        have : ⌊(1077167364120207360000 : ℚ) / 2 ^ (17 : ℤ)⌋ = 8218134797059687 := by
          rw [Int.floor_eq_iff]; norm_num
        rw [this]; norm_num
    have big : (2 : ℚ) ^ 100 ≤ 2 ^ 1024 := pow_le_pow_right₀ (by norm_num) (by norm_num)
    rw [hv, f1, truncRat_int] at h1
    rw [if_neg] at h1
    · refine h1.trans ?_
      congr 1
    · generalize (2 : ℚ) ^ 1024 = t at *
      intro h
      have := big.trans h; norm_num at this
  · rfl
  · have h1 := combination_false (n := 171) (k := 0) (by norm_num)
    refine h1.trans ?_
    simp only
    rw [if_pos]
    left
    have hbig : 2 ^ 1024 ≤ Nat.factorial 171 := by decide +kernel
    have hb' : (2 : ℚ) ^ 1024 ≤ ((Nat.factorial 171 : ℕ) : ℚ) / (Nat.factorial 0 : ℕ) := by
      rw [Nat.factorial_zero, Nat.cast_one, div_one]
      exact_mod_cast hbig
    have h2 := flRat_mono hb'
    have h3 := flRat_exact 1 1024 (by norm_num) (by norm_num)
    rw [Int.cast_one, one_mul] at h3
    have h4 : (2 : ℚ) ^ (1024 : ℤ) = 2 ^ (1024 : ℕ) := zpow_natCast 2 1024
    rw [h4] at h3
    rw [h3] at h2
    exact h2

/-- Non-vacuity (a test): the hypotheses of the theorems above are met by ordinary arguments, also
outside the guaranteed range `n <= 22`, where an exact answer is still possible. -/
example : combination (.int 20) (.int 10) false = .ok 184756 ∧
    permutation (.int 30) (.int 3) false = .ok 24360 ∧
    combination (.int 5) (.int 3) true = .ok 35 := by
  refine ⟨(C61_combination_partial 20 10 (by norm_num)).2.1 (by norm_num), ?_,
    (C61_combination_repeat_partial 5 3 (by norm_num) (by norm_num)).1 (by norm_num)⟩
  exact (C61_permutation_partial 30 3 (by norm_num)).2.1.mpr
    (isDouble_of_fits (n := Nat.descFactorial 30 3) (by decide +kernel))

/-- Non-vacuity of the rejection theorem. -/
example : ¬ ∃ a b : ℕ, CountArg.int 3 = .int a ∧ CountArg.int 4 = .int b ∧ b ≤ a := by
  rintro ⟨a, b, h1, h2, h3⟩
  simp only [CountArg.int.injEq] at h1 h2
  omega

end Verif
