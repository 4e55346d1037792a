import Verif.Model.Float64
import Mathlib.Tactic.Linarith
import Mathlib.Tactic.Ring
import Mathlib.Tactic.FieldSimp
import Mathlib.Tactic.Positivity
import Mathlib.Algebra.Order.Field.Power
/-! Facts about round-to-nearest-even. -/

namespace Verif

theorem roundHalfEven_neg (q : ℚ) : roundHalfEven (-q) = -roundHalfEven q := by
  unfold roundHalfEven
  have h1 : (⌊q⌋ : ℚ) ≤ q := Int.floor_le q
  have h2 : q < ⌊q⌋ + 1 := Int.lt_floor_add_one q
  rcases eq_or_lt_of_le h1 with h | h
  · have : ⌊-q⌋ = -⌊q⌋ := by
      rw [Int.floor_eq_iff]
      push_cast
      constructor <;> linarith
    simp only [this]
    push_cast
    rw [if_pos (by linarith), if_pos (by linarith)]
  · have : ⌊-q⌋ = -⌊q⌋ - 1 := by
      rw [Int.floor_eq_iff]
      push_cast
      constructor <;> linarith
    simp only [this]
    push_cast
    split_ifs <;> first | omega | (exfalso; linarith)

/-- rounding is within one half -/
theorem roundHalfEven_near (q : ℚ) : |(roundHalfEven q : ℚ) - q| ≤ 1 / 2 := by
  unfold roundHalfEven
  have h1 : (⌊q⌋ : ℚ) ≤ q := Int.floor_le q
  have h2 : q < ⌊q⌋ + 1 := Int.lt_floor_add_one q
  simp only
  split
  · rw [abs_le]; constructor <;> linarith
  · split
    · push_cast; rw [abs_le]; constructor <;> linarith
    · split <;> push_cast <;> rw [abs_le] <;> constructor <;> linarith

theorem roundHalfEven_int (n : ℤ) : roundHalfEven n = n := by
  unfold roundHalfEven
  simp

theorem roundHalfEven_mono {p q : ℚ} (h : p ≤ q) : roundHalfEven p ≤ roundHalfEven q := by
  have hf : ⌊p⌋ ≤ ⌊q⌋ := Int.floor_mono h
  have p1 : (⌊p⌋ : ℚ) ≤ p := Int.floor_le p
  have p2 : p < ⌊p⌋ + 1 := Int.lt_floor_add_one p
  have q1 : (⌊q⌋ : ℚ) ≤ q := Int.floor_le q
  rcases eq_or_lt_of_le hf with e | e
  · unfold roundHalfEven
    rw [e] at p1 p2 ⊢
    simp only
    split_ifs <;> first | omega | (exfalso; linarith)
  · have a : roundHalfEven p ≤ ⌊p⌋ + 1 := by
      unfold roundHalfEven
      simp only
      split
      · omega
      · split
        · omega
        · split <;> omega
    have b : ⌊q⌋ ≤ roundHalfEven q := by
      unfold roundHalfEven
      simp only
      split
      · omega
      · split
        · omega
        · split <;> omega
    omega

theorem ulpExp_neg (q : ℚ) : ulpExp (-q) = ulpExp q := by
  unfold ulpExp
  rw [abs_neg]

theorem flRat_neg (q : ℚ) : flRat (-q) = -flRat q := by
  unfold flRat
  rw [ulpExp_neg, neg_div, roundHalfEven_neg]
  push_cast
  ring

theorem flRat_zero : flRat 0 = 0 := by
  unfold flRat
  have : roundHalfEven 0 = 0 := by simpa using roundHalfEven_int 0
  simp [this]

theorem fl_neg (q : ℚ) : fl (-q) = match fl q with
    | .fin r => .fin (-r)
    | .inf s => .inf (!s)
    | .nan => .nan := by
  unfold fl
  rw [flRat_neg, abs_neg]
  split
  · rename_i h
    have hq : q ≠ 0 := by
      rintro rfl
      rw [flRat_zero, abs_zero] at h
      exact absurd h (not_le.mpr (by positivity))
    simp only [F64.inf.injEq]
    rcases lt_or_gt_of_ne hq with h' | h'
    · rw [decide_eq_true h', decide_eq_false (not_lt.mpr (neg_pos.mpr h').le)]; rfl
    · rw [decide_eq_false (not_lt.mpr (le_of_lt h')), decide_eq_true (neg_lt_zero.mpr h')]; rfl
  · rfl

theorem two_zpow_pos (e : ℤ) : (0 : ℚ) < 2 ^ e := zpow_pos (by norm_num) e

/-- the binade of a normal number -/
theorem ulp_cases (q : ℚ) (hq : q ≠ 0) : |q| < 2 ^ (ulpExp q + 53) ∧
    (ulpExp q = -1074 ∨ 2 ^ (ulpExp q + 52) ≤ |q|) := by
  have hpos : 0 < |q| := abs_pos.mpr hq
  have h1 : |q| < (2 : ℚ) ^ (Int.log 2 |q| + 1) := by
    have := Int.lt_zpow_succ_log_self (b := 2) (by norm_num) |q|
    simpa using this
  have h2 : (2 : ℚ) ^ Int.log 2 |q| ≤ |q| := by
    have := Int.zpow_log_le_self (b := 2) (by norm_num) hpos
    simpa using this
  constructor
  · refine lt_of_lt_of_le h1 (zpow_le_zpow_right₀ (by norm_num) ?_)
    unfold ulpExp
    omega
  · unfold ulpExp
    rcases le_total (Int.log 2 |q| - 52) (-1074) with h | h
    · left; omega
    · right
      rw [max_eq_left h]
      rw [show Int.log 2 |q| - 52 + 52 = Int.log 2 |q| by ring]
      exact h2

/-- absolute error: half a unit in the last place -/
theorem flRat_near (q : ℚ) : |flRat q - q| ≤ 2 ^ ulpExp q / 2 := by
  unfold flRat
  have hp := two_zpow_pos (ulpExp q)
  have h := roundHalfEven_near (q / 2 ^ ulpExp q)
  have e : (roundHalfEven (q / 2 ^ ulpExp q) : ℚ) * 2 ^ ulpExp q - q =
      ((roundHalfEven (q / 2 ^ ulpExp q) : ℚ) - q / 2 ^ ulpExp q) * 2 ^ ulpExp q := by
    rw [sub_mul, div_mul_cancel₀ _ hp.ne']
  rw [e, abs_mul, abs_of_pos hp]
  nlinarith

/-- relative error 2^-53, plus half the smallest subnormal -/
theorem flRat_error (q : ℚ) : |flRat q - q| ≤ |q| / 2 ^ 53 + 1 / 2 ^ 1075 := by
  rcases eq_or_ne q 0 with rfl | hq
  · rw [flRat_zero]; norm_num
  · have h := flRat_near q
    obtain ⟨-, h2⟩ := ulp_cases q hq
    have hn : (0 : ℚ) ≤ |q| / 2 ^ 53 := by positivity
    rcases h2 with h2 | h2
    · rw [h2] at h
      have : (2 : ℚ) ^ (-1074 : ℤ) / 2 = 1 / 2 ^ 1075 := by
        have h5 : (1 : ℚ) / 2 ^ 1075 = 2 ^ (-1075 : ℤ) := by
          rw [zpow_neg, one_div]
          norm_cast
        rw [h5, div_eq_iff (by norm_num), show (-1074 : ℤ) = -1075 + 1 by norm_num,
          zpow_add₀ (by norm_num), zpow_one]
      rw [this] at h
      exact le_trans h (le_add_of_nonneg_left hn)
    · have e : (2 : ℚ) ^ (ulpExp q + 52) = 2 ^ ulpExp q * 2 ^ 52 := by
        rw [zpow_add₀ (by norm_num)]
        norm_num
      rw [e] at h2
      have : (2 : ℚ) ^ ulpExp q / 2 ≤ |q| / 2 ^ 53 := by
        rw [div_le_div_iff₀ (by norm_num) (by norm_num)]
        nlinarith
      exact le_trans h (le_trans this (le_add_of_nonneg_right (by positivity)))

theorem flRat_nonneg {q : ℚ} (h : 0 ≤ q) : 0 ≤ flRat q := by
  unfold flRat
  have hp := two_zpow_pos (ulpExp q)
  have : (0 : ℤ) ≤ roundHalfEven (q / 2 ^ ulpExp q) := by
    have := roundHalfEven_mono (p := 0) (q := q / 2 ^ ulpExp q) (by positivity)
    rwa [show roundHalfEven 0 = 0 by simpa using roundHalfEven_int 0] at this
  have : (0 : ℚ) ≤ roundHalfEven (q / 2 ^ ulpExp q) := by exact_mod_cast this
  positivity

theorem flRat_mono_nonneg {p q : ℚ} (hp : 0 ≤ p) (h : p ≤ q) : flRat p ≤ flRat q := by
  rcases eq_or_lt_of_le hp with rfl | hp
  · rw [flRat_zero]; exact flRat_nonneg h
  have hq : 0 < q := lt_of_lt_of_le hp h
  have hle : ulpExp p ≤ ulpExp q := by
    unfold ulpExp
    have : Int.log 2 |p| ≤ Int.log 2 |q| := by
      apply Int.log_mono_right (abs_pos.mpr hp.ne')
      rw [abs_of_pos hp, abs_of_pos hq]
      exact h
    omega
  rcases eq_or_lt_of_le hle with e | e
  · unfold flRat
    rw [e]
    have hpp := two_zpow_pos (ulpExp q)
    have : roundHalfEven (p / 2 ^ ulpExp q) ≤ roundHalfEven (q / 2 ^ ulpExp q) :=
      roundHalfEven_mono (by rw [div_le_div_iff_of_pos_right hpp]; exact h)
    have : (roundHalfEven (p / 2 ^ ulpExp q) : ℚ) ≤ roundHalfEven (q / 2 ^ ulpExp q) := by
      exact_mod_cast this
    nlinarith
  · have hp1 := (ulp_cases p hp.ne').1
    have hq1 := (ulp_cases q hq.ne').2
    have hge : -1074 ≤ ulpExp p := by unfold ulpExp; omega
    have hq1 : (2 : ℚ) ^ (ulpExp q + 52) ≤ |q| := by
      rcases hq1 with h | h
      · omega
      · exact h
    rw [abs_of_pos hp] at hp1
    rw [abs_of_pos hq] at hq1
    have a : flRat p ≤ 2 ^ (ulpExp p + 53) := by
      unfold flRat
      have hpp := two_zpow_pos (ulpExp p)
      have e53 : (2 : ℚ) ^ (ulpExp p + 53) = 2 ^ 53 * 2 ^ ulpExp p := by
        rw [zpow_add₀ (by norm_num), mul_comm]; norm_num
      have : roundHalfEven (p / 2 ^ ulpExp p) ≤ 2 ^ 53 := by
        have := roundHalfEven_mono (p := p / 2 ^ ulpExp p) (q := ((2 ^ 53 : ℤ) : ℚ)) (by
          rw [div_le_iff₀ hpp, show ((2 ^ 53 : ℤ) : ℚ) = 2 ^ 53 by norm_num, ← e53]
          exact hp1.le)
        rwa [roundHalfEven_int] at this
      have : (roundHalfEven (p / 2 ^ ulpExp p) : ℚ) ≤ 2 ^ 53 := by exact_mod_cast this
      rw [e53]
      nlinarith
    have b : 2 ^ (ulpExp q + 52) ≤ flRat q := by
      unfold flRat
      have hpp := two_zpow_pos (ulpExp q)
      have e52 : (2 : ℚ) ^ (ulpExp q + 52) = 2 ^ 52 * 2 ^ ulpExp q := by
        rw [zpow_add₀ (by norm_num), mul_comm]; norm_num
      have : 2 ^ 52 ≤ roundHalfEven (q / 2 ^ ulpExp q) := by
        have := roundHalfEven_mono (p := ((2 ^ 52 : ℤ) : ℚ)) (q := q / 2 ^ ulpExp q) (by
          rw [le_div_iff₀ hpp, show ((2 ^ 52 : ℤ) : ℚ) = 2 ^ 52 by norm_num, ← e52]
          exact hq1)
        rwa [roundHalfEven_int] at this
      have : (2 ^ 52 : ℚ) ≤ roundHalfEven (q / 2 ^ ulpExp q) := by exact_mod_cast this
      rw [e52]
      nlinarith
    refine le_trans a (le_trans ?_ b)
    exact zpow_le_zpow_right₀ (by norm_num) (by omega)

/-- rounding is monotone -/
theorem flRat_mono {p q : ℚ} (h : p ≤ q) : flRat p ≤ flRat q := by
  rcases le_total 0 p with hp | hp
  · exact flRat_mono_nonneg hp h
  · rcases le_total 0 q with hq | hq
    · have : 0 ≤ flRat (-p) := flRat_nonneg (by linarith)
      rw [flRat_neg] at this
      have := flRat_nonneg hq
      linarith
    · have := flRat_mono_nonneg (p := -q) (q := -p) (by linarith) (by linarith)
      rw [flRat_neg, flRat_neg] at this
      linarith

/-- numbers of the form `m * 2^e` with `|m| <= 2^53` and `e >= -1074` are exact -/
theorem flRat_exact (m e : ℤ) (hm : |m| ≤ 2 ^ 53) (he : -1074 ≤ e) :
    flRat (m * 2 ^ e) = m * 2 ^ e := by
  rcases eq_or_ne m 0 with rfl | hm0
  · simp [flRat_zero]
  have hne : (m : ℚ) * 2 ^ e ≠ 0 := mul_ne_zero (by exact_mod_cast hm0) (two_zpow_pos e).ne'
  -- write q as an integer times its ulp
  suffices h : ∃ k : ℤ, (m : ℚ) * 2 ^ e = k * 2 ^ ulpExp ((m : ℚ) * 2 ^ e) by
    obtain ⟨k, hk⟩ := h
    unfold flRat
    generalize hu : ulpExp ((m : ℚ) * 2 ^ e) = u at *
    rw [hk, mul_div_cancel_right₀ _ (two_zpow_pos u).ne', roundHalfEven_int]
  obtain ⟨h1, h2⟩ := ulp_cases _ hne
  generalize ulpExp ((m : ℚ) * 2 ^ e) = u at *
  have habs : |(m : ℚ) * 2 ^ e| = |(m : ℚ)| * 2 ^ e := by
    rw [abs_mul, abs_of_pos (two_zpow_pos e)]
  have hmQ : |(m : ℚ)| ≤ 2 ^ 53 := by exact_mod_cast hm
  rcases le_or_gt u e with h | h
  · refine ⟨m * 2 ^ (e - u).toNat, ?_⟩
    push_cast
    rw [mul_assoc, ← zpow_natCast, ← zpow_add₀ (by norm_num)]
    congr 2
    omega
  · -- u > e, so the number is the power of two 2^(e+53), u = e + 1
    rcases h2 with h2 | h2
    · omega
    · rw [habs] at h2
      have hle : (2 : ℚ) ^ (u + 52) ≤ 2 ^ (e + 53) := by
        refine le_trans h2 ?_
        rw [zpow_add₀ (by norm_num) e 53, mul_comm]
        exact mul_le_mul_of_nonneg_left (by exact_mod_cast hmQ) (two_zpow_pos e).le
      have hue : u = e + 1 := by
        have := (zpow_le_zpow_iff_right₀ (by norm_num : (1 : ℚ) < 2)).mp hle
        omega
      subst hue
      have heq : |(m : ℚ)| = 2 ^ 53 := by
        apply le_antisymm hmQ
        rw [show e + 1 + 52 = 53 + e by ring, zpow_add₀ (by norm_num)] at h2
        have := le_of_mul_le_mul_right h2 (two_zpow_pos e)
        exact_mod_cast this
      rcases abs_eq (by positivity : (0 : ℚ) ≤ 2 ^ 53) |>.mp heq with h' | h'
      · refine ⟨2 ^ 52, ?_⟩
        rw [h', zpow_add₀ (by norm_num) e 1]
        push_cast
        ring
      · refine ⟨-2 ^ 52, ?_⟩
        rw [h', zpow_add₀ (by norm_num) e 1]
        push_cast
        ring

theorem flRat_int (n : ℤ) (h : |n| ≤ 2 ^ 53) : flRat n = n := by
  have := flRat_exact n 0 h (by norm_num)
  simpa using this

theorem truncRat_mono {p q : ℚ} (h : p ≤ q) : truncRat p ≤ truncRat q := by
  unfold truncRat
  split
  · rw [if_pos (by linarith)]
    exact Int.floor_mono h
  · split
    · have h1 : ⌈p⌉ ≤ 0 := by
        rw [Int.ceil_le]
        push_cast
        linarith
      have h2 : 0 ≤ ⌊q⌋ := Int.floor_nonneg.mpr (by assumption)
      omega
    · exact Int.ceil_mono h

theorem truncRat_int (n : ℤ) : truncRat n = n := by
  unfold truncRat
  split <;> simp

/-- truncation moves a number by less than one -/
theorem truncRat_near (q : ℚ) : |q - truncRat q| < 1 := by
  unfold truncRat
  split
  · have h1 := Int.floor_le q
    have h2 := Int.lt_floor_add_one q
    rw [abs_lt]; constructor <;> linarith
  · have h1 := Int.le_ceil q
    have h2 := Int.ceil_lt_add_one q
    rw [abs_lt]; constructor <;> linarith

end Verif
