import Verif.Model.PandC
import Verif.Proofs.Float64
import Verif.Proofs.PyLemmas
import Mathlib.Data.Nat.Choose.Basic
import Mathlib.Data.Nat.Choose.Factorization
/-!
# Lemmas for tools/PandC.py
-/

set_option exponentiation.threshold 1100

namespace Verif

/-- the rounding of a number whose binade is known -/
theorem flRat_eval (q : ℚ) (e k : ℤ) (he : -1074 ≤ e) (h1 : 2 ^ (e + 52) ≤ q)
    (h2 : q < 2 ^ (e + 53)) (hk : roundHalfEven (q / 2 ^ e) = k) : flRat q = k * 2 ^ e := by
  have hp : 0 < q := lt_of_lt_of_le (two_zpow_pos _) h1
  obtain ⟨a, b⟩ := ulp_cases q hp.ne'
  rw [abs_of_pos hp] at a b
  have hu : ulpExp q = e := by
    have h3 : e + 52 < ulpExp q + 53 :=
      (zpow_lt_zpow_iff_right₀ (by norm_num : (1 : ℚ) < 2)).mp (lt_of_le_of_lt h1 a)
    rcases b with b | b
    · omega
    · have h4 : ulpExp q + 52 < e + 53 :=
        (zpow_lt_zpow_iff_right₀ (by norm_num : (1 : ℚ) < 2)).mp (lt_of_le_of_lt b h2)
      omega
  unfold flRat
  rw [hu, hk]

/-- rounding an integer gives an integer -/
theorem flRat_int_is_int (n : ℤ) : ∃ m : ℤ, flRat n = m := by
  by_cases h : |n| ≤ 2 ^ 53
  · exact ⟨n, flRat_int n h⟩
  · push Not at h
    have hn : (n : ℚ) ≠ 0 := by
      rintro h0
      have : n = 0 := by exact_mod_cast h0
      subst this
      norm_num at h
    obtain ⟨a, b⟩ := ulp_cases (n : ℚ) hn
    have hu : 0 ≤ ulpExp (n : ℚ) := by
      have h1 : (2 : ℚ) ^ (53 : ℤ) < 2 ^ (ulpExp (n : ℚ) + 53) := by
        refine lt_of_lt_of_le ?_ a.le
        have : ((2 ^ 53 : ℤ) : ℚ) < ((|n| : ℤ) : ℚ) := by exact_mod_cast h
        rw [Int.cast_abs] at this
        exact_mod_cast this
      have := (zpow_lt_zpow_iff_right₀ (by norm_num : (1 : ℚ) < 2)).mp h1
      omega
    refine ⟨roundHalfEven (n / 2 ^ ulpExp (n : ℚ)) * 2 ^ (ulpExp (n : ℚ)).toNat, ?_⟩
    unfold flRat
    push_cast
    rw [← zpow_natCast, Int.toNat_of_nonneg hu]

theorem fl_fin_iff (q r : ℚ) : fl q = .fin r ↔ |flRat q| < 2 ^ (1024 : ℕ) ∧ r = flRat q := by
  unfold fl
  split
  · rename_i h
    constructor
    · intro h'; cases h'
    · intro h'; exact absurd h (not_le.mpr h'.1)
  · rename_i h
    constructor
    · intro h'; cases h'; exact ⟨not_le.mp h, rfl⟩
    · rintro ⟨-, rfl⟩; rfl

theorem fl_cases (q : ℚ) : (|flRat q| < 2 ^ (1024 : ℕ) ∧ fl q = .fin (flRat q)) ∨
    (2 ^ (1024 : ℕ) ≤ |flRat q| ∧ fl q = .inf (decide (q < 0))) := by
  unfold fl
  split
  · rename_i h; exact Or.inr ⟨h, rfl⟩
  · rename_i h; exact Or.inl ⟨not_le.mp h, rfl⟩

theorem pyFactorial_nat (n : ℕ) : pyFactorial n = .ok (n.factorial : ℤ) := by
  unfold pyFactorial
  rw [if_neg (by omega)]
  simp

theorem checkNK_nat {n k : ℕ} (h : k ≤ n) : checkNK (.int n) (.int k) = .ok ((n : ℤ), (k : ℤ)) := by
  have : (k : ℤ) ≤ n := by exact_mod_cast h
  simp [checkNK, pyAssert, this, bind, Except.bind, pure, Except.pure]

/-- the exact quotient of `Permutation` -/
theorem perm_quot {n k : ℕ} (h : k ≤ n) :
    ((n.factorial : ℤ) : ℚ) / (((n - k).factorial : ℕ) : ℤ) = (n.descFactorial k : ℕ) := by
  have h1 : (n - k).factorial * n.descFactorial k = n.factorial :=
    Nat.factorial_mul_descFactorial h
  have h2 : (((n - k).factorial : ℕ) : ℚ) ≠ 0 := by exact_mod_cast (Nat.factorial_pos _).ne'
  push_cast
  rw [div_eq_iff h2, ← h1]
  push_cast
  ring

/-- `Permutation(n, k)` in closed form -/
theorem permutation_eval {n k : ℕ} (h : k ≤ n) :
    permutation (.int n) (.int k) false =
      if 2 ^ (1024 : ℕ) ≤ flRat (n.descFactorial k : ℕ) then raise .overflowError
      else .ok (truncRat (flRat (n.descFactorial k : ℕ))) := by
  have hnn : 0 ≤ flRat ((n.descFactorial k : ℕ) : ℚ) := flRat_nonneg (by positivity)
  have hc : ((n : ℤ) - (k : ℤ)) = ((n - k : ℕ) : ℤ) := by omega
  have hne : (((n - k).factorial : ℕ) : ℤ) ≠ 0 := by
    exact_mod_cast (Nat.factorial_pos _).ne'
  simp only [permutation, checkNK_nat h, bind, Except.bind, Bool.false_eq_true, if_false,
    pyFactorial_nat, hc, intTrueDiv, if_neg hne]
  rw [perm_quot h]
  rcases fl_cases ((n.descFactorial k : ℕ) : ℚ) with ⟨h1, h2⟩ | ⟨h1, h2⟩
  · rw [abs_of_nonneg hnn] at h1
    simp only [h2, floatToInt, if_neg (not_le.mpr h1)]
  · rw [abs_of_nonneg hnn] at h1
    simp only [h2, if_pos h1]

/-- The three-factorial pipeline `int(a! / b! / c!)` of `Combination` (lines 72 and 74). -/
theorem comb_eval (a b c : ℕ) :
    (do
      let a ← pyFactorial (a : ℤ)
      let b ← pyFactorial (b : ℤ)
      let x ← intTrueDiv a b
      let c ← pyFactorial (c : ℤ)
      let y ← floatDivInt x c
      floatToInt y : Py ℤ) =
    let x := flRat ((a.factorial : ℚ) / b.factorial)
    let y := flRat (c.factorial : ℚ)
    if 2 ^ (1024 : ℕ) ≤ x ∨ 2 ^ (1024 : ℕ) ≤ y ∨ 2 ^ (1024 : ℕ) ≤ flRat (x / y) then
      raise .overflowError
    else .ok (truncRat (flRat (x / y))) := by
  have hx : 0 ≤ flRat ((a.factorial : ℚ) / b.factorial) := flRat_nonneg (by positivity)
  have hy : 1 ≤ flRat (c.factorial : ℚ) := by
    have h1 : (1 : ℚ) ≤ c.factorial := by exact_mod_cast Nat.factorial_pos c
    have h2 := flRat_mono h1
    have h3 : flRat 1 = 1 := by simpa using flRat_int 1 (by norm_num)
    rwa [h3] at h2
  have hz : 0 ≤ flRat (flRat ((a.factorial : ℚ) / b.factorial) / flRat (c.factorial : ℚ)) :=
    flRat_nonneg (by positivity)
  have hb : ((b.factorial : ℕ) : ℤ) ≠ 0 := by exact_mod_cast (Nat.factorial_pos _).ne'
  simp only [bind, Except.bind, pyFactorial_nat, intTrueDiv, if_neg hb, floatDivInt, intToFloat,
    Int.cast_natCast]
  rcases fl_cases ((a.factorial : ℚ) / b.factorial) with ⟨h1, h2⟩ | ⟨h1, h2⟩
  · rw [abs_of_nonneg hx] at h1
    rw [h2]
    simp only [not_le.mpr h1, false_or]
    rcases fl_cases (c.factorial : ℚ) with ⟨h3, h4⟩ | ⟨h3, h4⟩
    · rw [abs_of_nonneg (by linarith)] at h3
      rw [h4]
      have hy0 : flRat (c.factorial : ℚ) ≠ 0 := by
        intro h0; rw [h0] at hy; norm_num at hy
      simp only [not_le.mpr h3, false_or, if_neg hy0]
      generalize flRat ((a.factorial : ℚ) / b.factorial) / flRat (c.factorial : ℚ) = w at *
      rcases fl_cases w with ⟨h5, h6⟩ | ⟨h5, h6⟩
      · rw [abs_of_nonneg hz] at h5
        simp only [pure, Except.pure, h6, floatToInt, if_neg (not_le.mpr h5)]
      · rw [abs_of_nonneg hz] at h5
        simp only [pure, Except.pure, h6, floatToInt, if_pos h5]
    · rw [abs_of_nonneg (by linarith)] at h3
      rw [h4]
      simp only [h3, true_or, if_true]
  · rw [abs_of_nonneg hx] at h1
    rw [h2]
    simp only [h1, true_or, if_true]

/-- every step of the pipeline exact gives the exact count -/
theorem comb_exact {a b c : ℕ} (m : ℕ) (hm : m * (b.factorial * c.factorial) = a.factorial)
    (h1 : IsDouble ((a.factorial : ℚ) / b.factorial)) (h2 : IsDouble (c.factorial : ℚ))
    (h3 : IsDouble (m : ℚ)) :
    (let x := flRat ((a.factorial : ℚ) / b.factorial)
    let y := flRat (c.factorial : ℚ)
    if 2 ^ (1024 : ℕ) ≤ x ∨ 2 ^ (1024 : ℕ) ≤ y ∨ 2 ^ (1024 : ℕ) ≤ flRat (x / y) then
      (raise .overflowError : Py ℤ)
    else .ok (truncRat (flRat (x / y)))) = .ok (m : ℤ) := by
  have hb : ((b.factorial : ℕ) : ℚ) ≠ 0 := by exact_mod_cast (Nat.factorial_pos _).ne'
  have hc : ((c.factorial : ℕ) : ℚ) ≠ 0 := by exact_mod_cast (Nat.factorial_pos _).ne'
  have hq : (a.factorial : ℚ) / b.factorial / c.factorial = m := by
    rw [div_div, div_eq_iff (mul_ne_zero hb hc)]
    exact_mod_cast hm.symm
  simp only
  rw [h1.1, h2.1, hq, h3.1]
  have k1 := h1.2
  have k2 := h2.2
  have k3 := h3.2
  rw [abs_of_nonneg (by positivity)] at k1 k2 k3
  rw [if_neg]
  · have := truncRat_int m
    rw [Int.cast_natCast] at this
    rw [this]
  · rintro (h | h | h)
    · exact absurd h (not_le.mpr k1)
    · exact absurd h (not_le.mpr k2)
    · exact absurd h (not_le.mpr k3)

/-- a number `m * 2^e` with `m <= 2^53` below `2^1024` is a double -/
theorem isDouble_of (m e : ℕ) (hm : m ≤ 2 ^ 53) (he : e ≤ 970) :
    IsDouble ((m * 2 ^ e : ℕ) : ℚ) := by
  have hz : flRat ((m : ℤ) * 2 ^ (e : ℤ)) = (m : ℤ) * 2 ^ (e : ℤ) :=
    flRat_exact m e (by rw [abs_of_nonneg (by positivity)]; exact_mod_cast hm) (by omega)
  constructor
  · push_cast at hz ⊢
    exact_mod_cast hz
  · rw [abs_of_nonneg (by positivity)]
    have h1 : m * 2 ^ e ≤ 2 ^ 53 * 2 ^ 970 :=
      Nat.mul_le_mul hm (Nat.pow_le_pow_right (by norm_num) he)
    have h2 : m * 2 ^ e < 2 ^ 1024 := by
      refine lt_of_le_of_lt h1 ?_
      rw [← pow_add]
      exact Nat.pow_lt_pow_right (by norm_num) (by norm_num)
    exact_mod_cast h2

/-- a decidable certificate that a natural number is a double: some power of two divides it with a
quotient of at most 53 bits -/
def fits (n : ℕ) : Bool := (List.range 70).any fun e => n % 2 ^ e = 0 && n / 2 ^ e ≤ 2 ^ 53

theorem isDouble_of_fits {n : ℕ} (h : fits n = true) : IsDouble (n : ℚ) := by
  simp only [fits, List.any_eq_true, List.mem_range, Bool.and_eq_true, decide_eq_true_eq] at h
  obtain ⟨e, he, h1, h2⟩ := h
  have : n = n / 2 ^ e * 2 ^ e := by
    have := Nat.div_add_mod n (2 ^ e)
    rw [h1] at this
    rw [mul_comm]
    omega
  rw [this]
  exact isDouble_of _ _ h2 (by omega)

theorem fits_desc : ∀ n ≤ 22, ∀ k ≤ n, fits (n.descFactorial k) = true := by decide +kernel

theorem fits_fact : ∀ n ≤ 22, fits n.factorial = true := by decide +kernel

theorem fits_choose : ∀ n ≤ 22, ∀ k ≤ n, fits (n.choose k) = true := by decide +kernel

/-- relative error of one rounding, for numbers at least one -/
theorem flRat_rel {q : ℚ} (h : 1 ≤ q) : q * (1 - 1 / 2 ^ 52) ≤ flRat q ∧
    flRat q ≤ q * (1 + 1 / 2 ^ 52) := by
  have h1 := flRat_error q
  rw [abs_of_pos (show 0 < q by linarith)] at h1
  have h2 : (1 : ℚ) / 2 ^ 1075 ≤ q / 2 ^ 53 := by
    have : (1 : ℚ) / 2 ^ 1075 ≤ 1 / 2 ^ 53 := by
      apply one_div_le_one_div_of_le (by positivity)
      exact pow_le_pow_right₀ (by norm_num) (by norm_num)
    refine le_trans this ?_
    rw [div_le_div_iff_of_pos_right (by positivity)]
    exact h
  generalize (1 : ℚ) / 2 ^ 1075 = t at *
  rw [abs_le] at h1
  constructor <;> nlinarith [h1.1, h1.2]

/-- accumulated error of the pipeline -/
theorem comb_rel {A c : ℚ} (hc : 1 ≤ c) (hA : c ≤ A) :
    A / c * (1 - 1 / 2 ^ 49) ≤ flRat (flRat A / flRat c) ∧
    flRat (flRat A / flRat c) ≤ A / c * (1 + 1 / 2 ^ 49) := by
  obtain ⟨a1, a2⟩ := flRat_rel (le_trans hc hA)
  obtain ⟨c1, c2⟩ := flRat_rel hc
  have hmono := flRat_mono hA
  have hcpos : 0 < flRat c := by
    have : (0 : ℚ) < c * (1 - 1 / 2 ^ 52) := by
      apply mul_pos (by linarith); norm_num
    linarith
  have hq1 : 1 ≤ flRat A / flRat c := by
    rw [le_div_iff₀ hcpos]; linarith
  obtain ⟨z1, z2⟩ := flRat_rel hq1
  have hc0 : 0 < c := by linarith
  have hA0 : 0 < A := by linarith
  generalize flRat A = x at *
  generalize flRat c = y at *
  generalize flRat (x / y) = z at *
  set r := A / c with hr
  have hAr : A = r * c := by rw [hr]; field_simp
  have hr0 : 0 < r := div_pos hA0 hc0
  -- bounds for x / y
  have q1 : r * (1 - 1 / 2 ^ 51) ≤ x / y := by
    rw [le_div_iff₀ hcpos]
    calc r * (1 - 1 / 2 ^ 51) * y ≤ r * (1 - 1 / 2 ^ 51) * (c * (1 + 1 / 2 ^ 52)) := by
          apply mul_le_mul_of_nonneg_left c2
          apply mul_nonneg hr0.le; norm_num
      _ = A * ((1 - 1 / 2 ^ 51) * (1 + 1 / 2 ^ 52)) := by rw [hAr]; ring
      _ ≤ A * (1 - 1 / 2 ^ 52) := by
          apply mul_le_mul_of_nonneg_left _ hA0.le
          norm_num
      _ ≤ x := a1
  have q2 : x / y ≤ r * (1 + 1 / 2 ^ 50) := by
    rw [div_le_iff₀ hcpos]
    calc x ≤ A * (1 + 1 / 2 ^ 52) := a2
      _ ≤ A * ((1 + 1 / 2 ^ 50) * (1 - 1 / 2 ^ 52)) := by
          apply mul_le_mul_of_nonneg_left _ hA0.le
          norm_num
      _ = r * (1 + 1 / 2 ^ 50) * (c * (1 - 1 / 2 ^ 52)) := by rw [hAr]; ring
      _ ≤ r * (1 + 1 / 2 ^ 50) * y := by
          apply mul_le_mul_of_nonneg_left c1
          apply mul_nonneg hr0.le; norm_num
  constructor
  · refine le_trans ?_ z1
    calc r * (1 - 1 / 2 ^ 49) ≤ r * ((1 - 1 / 2 ^ 51) * (1 - 1 / 2 ^ 52)) := by
          apply mul_le_mul_of_nonneg_left _ hr0.le
          norm_num
      _ = r * (1 - 1 / 2 ^ 51) * (1 - 1 / 2 ^ 52) := by ring
      _ ≤ _ := by
          apply mul_le_mul_of_nonneg_right q1; norm_num
  · refine le_trans z2 ?_
    calc x / y * (1 + 1 / 2 ^ 52) ≤ r * (1 + 1 / 2 ^ 50) * (1 + 1 / 2 ^ 52) := by
          apply mul_le_mul_of_nonneg_right q2; norm_num
      _ = r * ((1 + 1 / 2 ^ 50) * (1 + 1 / 2 ^ 52)) := by ring
      _ ≤ _ := by
          apply mul_le_mul_of_nonneg_left _ hr0.le
          norm_num

/-- truncation of a number close to a count below 2^49 -/
theorem trunc_close {m : ℕ} {z : ℚ} (hm : m < 2 ^ 49) (h1 : (m : ℚ) * (1 - 1 / 2 ^ 49) ≤ z)
    (h2 : z ≤ m * (1 + 1 / 2 ^ 49)) : truncRat z = m ∨ truncRat z = m - 1 := by
  have hmq : (m : ℚ) < 2 ^ 49 := by exact_mod_cast hm
  have hm0 : (0 : ℚ) ≤ m := by positivity
  have hz : 0 ≤ z := le_trans (mul_nonneg hm0 (by norm_num)) h1
  have hd : (m : ℚ) * (1 / 2 ^ 49) < 1 := by
    rw [mul_one_div, div_lt_one (by positivity)]; exact hmq
  unfold truncRat
  rw [if_pos hz]
  have u : ⌊z⌋ < (m : ℤ) + 1 := by
    rw [Int.floor_lt]
    push_cast
    nlinarith
  have l : (m : ℤ) - 1 ≤ ⌊z⌋ := by
    rw [Int.le_floor]
    push_cast
    nlinarith
  omega

end Verif
