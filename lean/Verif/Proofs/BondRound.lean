import Verif.Model.BondRound
import Verif.Props.BondLength
import Verif.Props.BondSites
/-!
# Rounding to `n` digits
-/

set_option exponentiation.threshold 1100

namespace Verif

theorem ten_pow_small {k : ℕ} (hk : k ≤ 15) : (10 : ℚ) ^ k ≤ 2 ^ 50 := by
  calc (10 : ℚ) ^ k ≤ 10 ^ 15 := pow_le_pow_right₀ (by norm_num) hk
    _ ≤ 2 ^ 50 := by norm_num

theorem fl_ten {k : ℕ} (hk : k ≤ 15) : fl (10 ^ k) = .fin (10 ^ k) := by
  have h := ten_pow_small hk
  have h0 : (0 : ℚ) ≤ 10 ^ k := by positivity
  rw [fl_finite (by rw [abs_of_nonneg h0]; refine h.trans (by norm_num))]
  congr 1
  have := flRat_int (10 ^ k) (by
    have : ((10 : ℤ) ^ k : ℚ) ≤ 2 ^ 53 := by push_cast; exact h.trans (by norm_num)
    rw [abs_of_nonneg (by positivity)]
    exact_mod_cast this)
  push_cast at this
  exact this

theorem zpow_cases {n : ℤ} (hn : |n| ≤ 15) : (1 / 2 ^ 50 : ℚ) ≤ 10 ^ n ∧ (10 : ℚ) ^ n ≤ 2 ^ 50 := by
  have key : ∀ k : ℕ, k ≤ 15 → (1 : ℚ) ≤ 10 ^ k ∧ (10 : ℚ) ^ k ≤ 2 ^ 50 := fun k hk =>
    ⟨one_le_pow₀ (by norm_num), ten_pow_small hk⟩
  rcases le_total 0 n with h | h
  · obtain ⟨k, rfl⟩ := Int.eq_ofNat_of_zero_le h
    have := key k (by have := abs_le.1 hn; omega)
    rw [show ((k : ℕ) : ℤ) = (k : ℤ) from rfl, zpow_natCast]
    exact ⟨le_trans (by norm_num) this.1, this.2⟩
  · obtain ⟨k, hk⟩ := Int.eq_ofNat_of_zero_le (show 0 ≤ -n by omega)
    obtain rfl : n = -(k : ℤ) := by omega
    have := key k (by have := abs_le.1 hn; omega)
    rw [zpow_neg, zpow_natCast]
    refine ⟨?_, (inv_le_one_of_one_le₀ this.1).trans (by norm_num)⟩
    rw [one_div]
    exact inv_anti₀ (by linarith) this.2

/-- The integer that `np.around` divides by the power of ten. -/
def unit (n : ℤ) (q : ℚ) : ℤ := roundHalfEven (flRat (q * 10 ^ n))

theorem unit_near {n : ℤ} (q : ℚ) :
    |(unit n q : ℚ) - q * 10 ^ n| ≤ 1 / 2 + |q| * 10 ^ n / 2 ^ 53 + 1 / 2 ^ 1075 := by
  have h1 := roundHalfEven_near (flRat (q * 10 ^ n))
  have h2 := flRat_error (q * 10 ^ n)
  have h3 : |q * 10 ^ n| = |q| * 10 ^ n := by rw [abs_mul, abs_of_pos (show (0 : ℚ) < 10 ^ n by positivity)]
  rw [h3] at h2
  have h4 := abs_sub_le (unit n q : ℚ) (flRat (q * 10 ^ n)) (q * 10 ^ n)
  simp only [unit] at h4 ⊢
  linarith

/-- Distance of the multiple of `10**-n` from the number. -/
theorem multiple_near {n : ℤ} (hn : |n| ≤ 15) (q : ℚ) :
    |(unit n q : ℚ) * 10 ^ (-n) - q| ≤ 1 / 2 * 10 ^ (-n) + |q| / 2 ^ 53 + 1 / 2 ^ 1020 := by
  have hp : (0 : ℚ) < 10 ^ (-n) := by positivity
  have e : (10 : ℚ) ^ n * 10 ^ (-n) = 1 := by rw [← zpow_add₀ (by norm_num)]; simp
  have h1 := mul_le_mul_of_nonneg_right (unit_near (n := n) q) hp.le
  have e2 : (unit n q : ℚ) * 10 ^ (-n) - q = ((unit n q : ℚ) - q * 10 ^ n) * 10 ^ (-n) := by
    rw [sub_mul, mul_assoc q, e, mul_one]
  rw [e2, abs_mul, abs_of_pos hp]
  refine h1.trans ?_
  have h2 : |q| * 10 ^ n / 2 ^ 53 * (10 : ℚ) ^ (-n) = |q| / 2 ^ 53 := by
    rw [div_mul_eq_mul_div, mul_assoc, e, mul_one]
  rw [add_mul, add_mul, h2]
  have h3 := (zpow_cases (n := -n) (by rwa [abs_neg])).2
  have h4 : (1 / 2 ^ 1075 : ℚ) * 10 ^ (-n) ≤ 1 / 2 ^ 1020 := by
    calc (1 / 2 ^ 1075 : ℚ) * 10 ^ (-n) ≤ 1 / 2 ^ 1075 * 2 ^ 50 := mul_le_mul_of_nonneg_left h3 (by positivity)
      _ ≤ 1 / 2 ^ 1020 := by norm_num
  linarith

theorem multiple_small {n : ℤ} (hn : |n| ≤ 15) {q : ℚ} (hq : |q| ≤ 2 ^ 500) :
    |(unit n q : ℚ) * 10 ^ (-n)| ≤ 2 ^ 502 := by
  have h1 := multiple_near hn q
  have h2 := (zpow_cases (n := -n) (by rwa [abs_neg])).2
  have h3 := abs_sub_abs_le_abs_sub ((unit n q : ℚ) * 10 ^ (-n)) q
  have h4 : |q| / 2 ^ 53 ≤ 2 ^ 500 := (div_le_self (abs_nonneg q) (by norm_num)).trans hq
  have h5 : (2 : ℚ) ^ 500 + (1 / 2 * 2 ^ 50 + 2 ^ 500 + 1 / 2 ^ 1020) ≤ 2 ^ 502 := by norm_num
  linarith

theorem around_fin {n : ℤ} (hn : |n| ≤ 15) {q : ℚ} (hq : |q| ≤ 2 ^ 500) :
    around n (.fin q) = .fin (flRat (unit n q * 10 ^ (-n))) := by
  have hs := multiple_small hn hq
  have hz := zpow_cases hn
  have hprod : |q * 10 ^ n| ≤ 2 ^ 1000 := by
    rw [abs_mul, abs_of_pos (show (0 : ℚ) < 10 ^ n by positivity)]
    calc |q| * 10 ^ n ≤ 2 ^ 500 * 2 ^ 50 := mul_le_mul hq hz.2 (by positivity) (by positivity)
      _ ≤ 2 ^ 1000 := by norm_num
  have hfin : fl ((unit n q : ℚ) * 10 ^ (-n)) = .fin (flRat (unit n q * 10 ^ (-n))) :=
    fl_finite (hs.trans (by norm_num))
  unfold around
  split
  · rename_i h
    obtain ⟨k, rfl⟩ := Int.eq_ofNat_of_zero_le h
    have hk : k ≤ 15 := by have := abs_le.1 hn; omega
    rw [Int.toNat_natCast, fl_ten hk]
    simp only [fmul]
    rw [← zpow_natCast, fl_finite hprod]
    simp only [frint, fdiv]
    rw [if_neg (by positivity), ← hfin, zpow_neg, div_eq_mul_inv]
    rfl
  · rename_i h
    obtain ⟨k, hk'⟩ := Int.eq_ofNat_of_zero_le (show 0 ≤ -n by omega)
    have hk : k ≤ 15 := by have := abs_le.1 hn; omega
    rw [show (-n).toNat = k by omega, fl_ten hk]
    simp only [fdiv]
    rw [if_neg (by positivity)]
    have e : q / 10 ^ k = q * 10 ^ n := by
      rw [show n = -(k : ℤ) by omega, zpow_neg, zpow_natCast, div_eq_mul_inv]
    rw [e, fl_finite hprod]
    simp only [frint, fmul]
    have e2 : (10 : ℚ) ^ k = 10 ^ (-n) := by rw [hk', zpow_natCast]
    rw [e2]
    exact hfin

/-- The rounded number. -/
theorem around_near {n : ℤ} (hn : |n| ≤ 15) {q : ℚ} (_ : |q| ≤ 2 ^ 500) :
    |flRat (unit n q * 10 ^ (-n)) - q| ≤ (1 / 2 + 1 / 2 ^ 50) * 10 ^ (-n) + |q| / 2 ^ 51 := by
  have h1 := multiple_near hn q
  have h2 := flRat_error ((unit n q : ℚ) * 10 ^ (-n))
  have h3 := abs_sub_le (flRat ((unit n q : ℚ) * 10 ^ (-n))) ((unit n q : ℚ) * 10 ^ (-n)) q
  have h4 := abs_sub_abs_le_abs_sub ((unit n q : ℚ) * 10 ^ (-n)) q
  have hz := (zpow_cases (n := -n) (by rwa [abs_neg])).1
  generalize (unit n q : ℚ) * 10 ^ (-n) = M at *
  generalize (10 : ℚ) ^ (-n) = f at *
  have h0 := abs_nonneg q
  have h5 : |M| / 2 ^ 53 ≤ (|q| + (1 / 2 * f + |q| / 2 ^ 53 + 1 / 2 ^ 1020)) / 2 ^ 53 :=
    div_le_div_of_nonneg_right (by linarith) (by norm_num)
  have h6 : (1 / 2 ^ 1020 : ℚ) + (1 / 2 ^ 1020) / 2 ^ 53 + 1 / 2 ^ 1075 ≤ 1 / 2 ^ 1000 := by norm_num
  have h7 : (1 / 2 ^ 1000 : ℚ) ≤ 1 / 2 ^ 900 * f := by
    calc (1 / 2 ^ 1000 : ℚ) ≤ 1 / 2 ^ 900 * (1 / 2 ^ 50) := by norm_num
      _ ≤ _ := mul_le_mul_of_nonneg_left hz (by norm_num)
  have hf : 0 < f := lt_of_lt_of_le (by norm_num) hz
  have h8 : f / 2 ^ 54 + 1 / 2 ^ 900 * f ≤ 1 / 2 ^ 50 * f := by
    rw [div_eq_mul_inv, mul_comm f, ← add_mul]
    exact mul_le_mul_of_nonneg_right (by norm_num) hf.le
  have h9 : |q| / 2 ^ 53 + |q| / 2 ^ 53 + |q| / 2 ^ 53 / 2 ^ 53 ≤ |q| / 2 ^ 51 := by
    have : |q| / 2 ^ 51 - (|q| / 2 ^ 53 + |q| / 2 ^ 53 + |q| / 2 ^ 53 / 2 ^ 53) = |q| * (1 / 2 ^ 51 - 2 / 2 ^ 53 - 1 / 2 ^ 106) := by
      ring
    have h' : 0 ≤ |q| * (1 / 2 ^ 51 - 2 / 2 ^ 53 - 1 / 2 ^ 106 : ℚ) := mul_nonneg h0 (by norm_num)
    linarith
  have h10 : (|q| + (1 / 2 * f + |q| / 2 ^ 53 + 1 / 2 ^ 1020)) / 2 ^ 53 =
      |q| / 2 ^ 53 + f / 2 ^ 54 + |q| / 2 ^ 53 / 2 ^ 53 + 1 / 2 ^ 1020 / 2 ^ 53 := by ring
  rw [h10] at h5
  rw [add_mul]
  linarith

/-! ### Integers -/

theorem unit_int {n : ℤ} (hn : |n| ≤ 15) (hneg : n < 0) {k : ℤ} (hk : |k| ≤ 2 ^ 51) :
    |(unit n k : ℚ) * 10 ^ (-n) - k| ≤ 10 ^ (-n) / 2 := by
  by_contra hc
  push Not at hc
  obtain ⟨j, hj⟩ := Int.eq_ofNat_of_zero_le (show 0 ≤ -n by omega)
  have h1 := multiple_near hn (k : ℚ)
  rw [hj, zpow_natCast] at h1 hc
  have hc' : ((10 ^ j : ℤ) : ℚ) < ((2 * |unit n k * 10 ^ j - k| : ℤ) : ℚ) := by
    push_cast
    linarith
  have hc2 : (10 ^ j : ℤ) + 1 ≤ 2 * |unit n k * 10 ^ j - k| := by exact_mod_cast hc'
  have hc3 : ((10 ^ j + 1 : ℤ) : ℚ) ≤ ((2 * |unit n k * 10 ^ j - k| : ℤ) : ℚ) := by exact_mod_cast hc2
  push_cast at hc3
  have hk' : |(k : ℚ)| / 2 ^ 53 ≤ 1 / 4 := by
    have : |(k : ℚ)| ≤ 2 ^ 51 := by exact_mod_cast hk
    rw [div_le_iff₀ (by norm_num)]
    refine this.trans (by norm_num)
  have : (1 / 2 ^ 1020 : ℚ) < 1 / 4 := by norm_num
  linarith

theorem aroundInt_neg {n : ℤ} (hn : |n| ≤ 15) (hneg : n < 0) {k : ℤ} (hk : |k| ≤ 2 ^ 51) :
    aroundInt n k = unit n k * 10 ^ (-n).toNat := by
  obtain ⟨j, hj⟩ := Int.eq_ofNat_of_zero_le (show 0 ≤ -n by omega)
  have hj15 : j ≤ 15 := by have := abs_le.1 hn; omega
  have hk' : |(k : ℚ)| ≤ 2 ^ 51 := by exact_mod_cast hk
  have hfl : fl (k : ℚ) = .fin k := by
    rw [fl_finite (hk'.trans (by norm_num)), flRat_int k (hk.trans (by norm_num))]
  have h1 := unit_int hn hneg hk
  have h10 := ten_pow_small hj15
  rw [hj, zpow_natCast] at h1
  have hb : |(unit n k : ℚ) * 10 ^ j| ≤ 2 ^ 53 := by
    have := abs_sub_abs_le_abs_sub ((unit n k : ℚ) * 10 ^ j) k
    have e : (2 : ℚ) ^ 51 + 2 ^ 50 / 2 ≤ 2 ^ 53 := by norm_num
    linarith
  have hb' : |unit n k * 10 ^ j| ≤ 2 ^ 53 := by
    have : ((|unit n k * 10 ^ j| : ℤ) : ℚ) ≤ ((2 ^ 53 : ℤ) : ℚ) := by push_cast; exact hb
    exact_mod_cast this
  unfold aroundInt
  rw [if_neg (by omega), hfl, around_fin hn (hk'.trans (by norm_num)), hj, Int.toNat_natCast]
  simp only [zpow_natCast]
  have e : (unit n (k : ℚ) : ℚ) * 10 ^ j = ((unit n k * 10 ^ j : ℤ) : ℚ) := by push_cast; rfl
  rw [e, flRat_int _ hb', truncRat_int]
  have := abs_le.1 hb'
  exact wrap64_fits (by omega) (by omega)

/-! ### Rounding and sign -/

theorem unit_neg (n : ℤ) (q : ℚ) : unit n (-q) = -unit n q := by
  simp only [unit, neg_mul, flRat_neg, roundHalfEven_neg]

theorem fneg_fl (q : ℚ) : fl (-q) = fneg (fl q) := by
  rw [fl_neg]
  cases fl q <;> rfl

theorem frint_neg (x : F64) : frint (fneg x) = fneg (frint x) := by
  cases x with
  | nan => rfl
  | inf s => rfl
  | fin q => simp only [fneg, frint, roundHalfEven_neg, Int.cast_neg]

theorem fmul_neg_left (x y : F64) : fmul (fneg x) y = fneg (fmul x y) := by
  cases x with
  | nan => cases y <;> rfl
  | inf s =>
    cases y with
    | nan => rfl
    | inf t => cases s <;> cases t <;> rfl
    | fin q =>
      simp only [fneg, fmul]
      split
      · rfl
      · cases s <;> cases decide (q < 0) <;> rfl
  | fin q =>
    cases y with
    | nan => rfl
    | inf t =>
      simp only [fneg, fmul, neg_eq_zero]
      split
      · rfl
      · rename_i h
        rcases lt_or_gt_of_ne h with h' | h'
        · rw [decide_eq_true h', decide_eq_false (by linarith : ¬ -q < 0)]
          cases t <;> rfl
        · rw [decide_eq_false (by linarith : ¬ q < 0), decide_eq_true (by linarith : -q < 0)]
          cases t <;> rfl
    | fin r =>
      simp only [fneg, fmul, neg_mul]
      exact fneg_fl _

theorem fdiv_neg_left (x y : F64) : fdiv (fneg x) y = fneg (fdiv x y) := by
  cases x with
  | nan => cases y <;> rfl
  | inf s =>
    cases y with
    | nan => rfl
    | inf t => rfl
    | fin q =>
      simp only [fneg, fdiv]
      split
      · rfl
      · cases s <;> cases decide (q < 0) <;> rfl
  | fin q =>
    cases y with
    | nan => rfl
    | inf t => simp [fneg, fdiv]
    | fin r =>
      simp only [fneg, fdiv]
      split
      · rfl
      · rw [neg_div]
        exact fneg_fl _

theorem around_fneg (n : ℤ) (x : F64) : around n (fneg x) = fneg (around n x) := by
  unfold around
  split
  · rw [fmul_neg_left, frint_neg, fdiv_neg_left]
  · rw [fdiv_neg_left, frint_neg, fmul_neg_left]

end Verif
