import Verif.Proofs.Float64
import Verif.Proofs.Order
import Verif.Proofs.PyLemmas
import Verif.Model.QuantumState
/-!
# C04: identification of coordinates at a given precision

A finite Python float is given by its exact rational value `x` (`IsDouble x`).  `Z = 10**p`.
-/

set_option exponentiation.threshold 1100

namespace Verif

/-- the integer which represents a finite float coordinate -/
theorem zoomInt_flt {Z : ℤ} {x : ℚ} {k : ℤ} (h : Coord.zoomInt Z (.flt (.fin x)) = .ok k) :
    k = truncRat (flRat (flRat Z * x)) := by
  unfold Coord.zoomInt intToFloat at h
  by_cases h1 : 2 ^ (1024 : ℕ) ≤ |flRat (Z : ℚ)|
  · simp only [fl, if_pos h1] at h
    cases h
  · simp only [fl, if_neg h1] at h
    simp only [Bind.bind, Except.bind, fmul, fl] at h
    by_cases h2 : 2 ^ (1024 : ℕ) ≤ |flRat (flRat (Z : ℚ) * x)|
    · simp only [if_pos h2, floatToInt] at h
      cases h
    · simp only [if_neg h2, floatToInt] at h
      cases h
      rfl

/-- the double product differs from the exact one by a relative 2^-52 (and a subnormal) -/
theorem product_error (Z : ℤ) (hZ : 1 ≤ Z) (x : ℚ) :
    |flRat (flRat Z * x) - Z * x| ≤ |Z * x| / 2 ^ 51 + 1 / 2 ^ 1075 + |x| / 2 ^ 1075 * 2 := by
  have hZ' : (1 : ℚ) ≤ Z := by exact_mod_cast hZ
  have h1 := flRat_error (Z : ℚ)
  have h2 := flRat_error (flRat Z * x)
  generalize flRat (flRat Z * x) = w at *
  generalize flRat (Z : ℚ) = z at *
  have ht : (0 : ℚ) ≤ 1 / 2 ^ 1075 := by positivity
  have ht' : (1 : ℚ) / 2 ^ 1075 ≤ 1 := by
    rw [div_le_one (by positivity)]
    exact one_le_pow₀ (by norm_num)
  rw [show |x| / 2 ^ 1075 * 2 = 2 * (1 / 2 ^ 1075) * |x| by ring]
  generalize (1 : ℚ) / 2 ^ 1075 = t at *
  have hx : 0 ≤ |x| := abs_nonneg x
  rw [abs_of_pos (by linarith : (0 : ℚ) < Z)] at h1
  have e1 : |z * x - Z * x| ≤ (Z / 2 ^ 53 + t) * |x| := by
    rw [← sub_mul, abs_mul]
    exact mul_le_mul_of_nonneg_right h1 hx
  have e2 : |w - Z * x| ≤ |w - z * x| + |z * x - Z * x| := abs_sub_le _ _ _
  have e3 : |z * x| ≤ |Z * x| + |z * x - Z * x| := by
    have := abs_add_le (Z * x) (z * x - Z * x)
    rwa [add_sub_cancel] at this
  have e4 : |Z * x| = Z * |x| := by rw [abs_mul, abs_of_pos (by linarith : (0 : ℚ) < Z)]
  rw [e4] at e3 ⊢
  have htx : 0 ≤ t * |x| := mul_nonneg ht hx
  have hZx : 0 ≤ Z * |x| := mul_nonneg (by linarith) hx
  have e5 : (Z / 2 ^ 53 + t) * |x| = Z * |x| / 2 ^ 53 + t * |x| := by ring
  rw [e5] at e1
  linarith

/-- **C04** (soundness for floats).  With `_ZOOM = Z = 10**p`, if two finite float coordinates get the
same integer (this is what makes sites equal), then they differ by less than `2/Z` up to the relative
rounding error `2^-50` of the product (and an additive `2^-1000` from subnormals). -/
theorem C04_float_soundness (p : ℕ) (x y : ℚ) (k : ℤ)
    (hx : Coord.zoomInt (10 ^ p) (.flt (.fin x)) = .ok k)
    (hy : Coord.zoomInt (10 ^ p) (.flt (.fin y)) = .ok k) :
    |x - y| < 2 / 10 ^ p + (|x| + |y|) / 2 ^ 50 + 1 / 2 ^ 1000 := by
  have hx' := zoomInt_flt hx
  have hy' := zoomInt_flt hy
  have hZ : (1 : ℤ) ≤ 10 ^ p := one_le_pow₀ (by norm_num)
  have a := product_error (10 ^ p) hZ x
  have b := product_error (10 ^ p) hZ y
  generalize hX : flRat (flRat ((10 ^ p : ℤ) : ℚ) * x) = X at *
  generalize hY : flRat (flRat ((10 ^ p : ℤ) : ℚ) * y) = Y at *
  have c := truncRat_near X
  have d := truncRat_near Y
  rw [← hx'] at c
  rw [← hy'] at d
  push_cast at a b
  have hZq : (1 : ℚ) ≤ 10 ^ p := one_le_pow₀ (by norm_num)
  generalize (10 : ℚ) ^ p = Z at *
  have hsub : (1 : ℚ) / 2 ^ 1075 * 2 ≤ 1 / 2 ^ 1000 / 2 ^ 53 := by
    rw [div_div, ← pow_add, div_mul_eq_mul_div, div_le_div_iff₀ (by positivity) (by positivity),
      one_mul, one_mul, ← pow_succ']
    exact pow_le_pow_right₀ (by norm_num) (by norm_num)
  have ht : (0 : ℚ) ≤ 1 / 2 ^ 1075 := by positivity
  have hu1 : (1 : ℚ) / 2 ^ 1000 ≤ 1 := by
    rw [div_le_one (by positivity)]
    exact one_le_pow₀ (by norm_num)
  have hu0 : (0 : ℚ) < 1 / 2 ^ 1000 := by positivity
  rw [show |x| / 2 ^ 1075 * 2 = (1 / 2 ^ 1075 * 2) * |x| by ring] at a
  rw [show |y| / 2 ^ 1075 * 2 = (1 / 2 ^ 1075 * 2) * |y| by ring] at b
  generalize (1 : ℚ) / 2 ^ 1075 = t at *
  generalize (1 : ℚ) / 2 ^ 1000 = u at *
  have hxn : 0 ≤ |x| := abs_nonneg x
  have hyn : 0 ≤ |y| := abs_nonneg y
  have e : |Z * x - Z * y| < 2 + (|Z * x| / 2 ^ 51 + t + t * 2 * |x|) + (|Z * y| / 2 ^ 51 + t + t * 2 * |y|) := by
    rw [abs_lt] at c d
    rw [abs_le] at a b
    rw [abs_lt]
    constructor <;> linarith [c.1, c.2, d.1, d.2, a.1, a.2, b.1, b.2]
  have hZ0 : 0 < Z := by linarith
  rw [← mul_sub, abs_mul, abs_mul, abs_mul, abs_of_pos hZ0] at e
  have h1 : t * 2 * |x| ≤ Z * |x| / 2 ^ 53 := by
    have : t * 2 ≤ 1 / 2 ^ 53 := by
      refine le_trans hsub ?_
      gcongr
    calc t * 2 * |x| ≤ 1 / 2 ^ 53 * |x| := mul_le_mul_of_nonneg_right this hxn
      _ ≤ 1 / 2 ^ 53 * (Z * |x|) := by
          apply mul_le_mul_of_nonneg_left _ (by norm_num)
          nlinarith
      _ = _ := by ring
  have h2 : t * 2 * |y| ≤ Z * |y| / 2 ^ 53 := by
    have : t * 2 ≤ 1 / 2 ^ 53 := by
      refine le_trans hsub ?_
      gcongr
    calc t * 2 * |y| ≤ 1 / 2 ^ 53 * |y| := mul_le_mul_of_nonneg_right this hyn
      _ ≤ 1 / 2 ^ 53 * (Z * |y|) := by
          apply mul_le_mul_of_nonneg_left _ (by norm_num)
          nlinarith
      _ = _ := by ring
  have h3 : t * 2 ≤ Z * u := by
    calc t * 2 ≤ u / 2 ^ 53 := hsub
      _ ≤ u := div_le_self hu0.le (by norm_num)
      _ ≤ Z * u := by nlinarith
  have goal' : Z * |x - y| < Z * (2 / Z + (|x| + |y|) / 2 ^ 50 + u) := by
    rw [mul_add, mul_add, mul_div_cancel₀ _ hZ0.ne']
    have hZx : 0 ≤ Z * |x| := mul_nonneg hZ0.le hxn
    have hZy : 0 ≤ Z * |y| := mul_nonneg hZ0.le hyn
    have : Z * ((|x| + |y|) / 2 ^ 50) = Z * |x| / 2 ^ 50 + Z * |y| / 2 ^ 50 := by ring
    rw [this]
    linarith
  exact lt_of_mul_lt_mul_left goal' hZ0.le

/-- **C04** (integers).  Integer coordinates get the same integer only if they are equal. -/
theorem C04_integers_never_identified (p : ℕ) (m n k : ℤ)
    (hm : Coord.zoomInt (10 ^ p) (.int m) = .ok k) (hn : Coord.zoomInt (10 ^ p) (.int n) = .ok k) :
    m = n := by
  simp only [Coord.zoomInt] at hm hn
  cases hm
  injection hn with hn
  exact mul_left_cancel₀ (by positivity) hn.symm

/-- `10**p` is an exact double for `p <= 22`. -/
theorem pow_ten_exact (p : ℕ) (hp : p ≤ 22) : flRat ((10 ^ p : ℤ) : ℚ) = 10 ^ p := by
  have h := flRat_exact (5 ^ p) p (by
    rw [abs_of_pos (by positivity)]
    calc (5 : ℤ) ^ p ≤ 5 ^ 22 := pow_le_pow_right₀ (by norm_num) hp
      _ ≤ 2 ^ 53 := by norm_num) (by omega)
  have e : ((10 ^ p : ℤ) : ℚ) = ((5 ^ p : ℤ) : ℚ) * 2 ^ (p : ℤ) := by
    push_cast
    rw [zpow_natCast, ← mul_pow]
    norm_num
  rw [e, h, ← e]
  push_cast
  rfl

/-- **C04** (int against float).  For `p <= 22`, an integer coordinate and the same value as a float are
identified as long as `10**p * |n| <= 2**53`. -/
theorem C04_int_float_identified (p : ℕ) (hp : p ≤ 22) (n : ℤ) (hn : 10 ^ p * |n| ≤ 2 ^ 53) :
    Coord.zoomInt (10 ^ p) (.int n) = .ok (10 ^ p * n) ∧
    Coord.zoomInt (10 ^ p) (.flt (.fin n)) = .ok (10 ^ p * n) := by
  refine ⟨rfl, ?_⟩
  have h53 : (2 : ℚ) ^ 53 < 2 ^ 1024 := pow_lt_pow_right₀ (by norm_num) (by norm_num)
  have hprod : flRat ((10 ^ p : ℚ) * n) = 10 ^ p * n := by
    have := flRat_int (10 ^ p * n) (by rwa [abs_mul, abs_of_pos (by positivity)])
    push_cast at this
    exact this
  unfold Coord.zoomInt intToFloat
  have h1 : ¬ 2 ^ (1024 : ℕ) ≤ |flRat ((10 ^ p : ℤ) : ℚ)| := by
    rw [pow_ten_exact p hp, not_le, abs_of_pos (by positivity)]
    calc (10 : ℚ) ^ p ≤ 10 ^ 22 := pow_le_pow_right₀ (by norm_num) hp
      _ ≤ 2 ^ 100 := by norm_num
      _ < 2 ^ 1024 := pow_lt_pow_right₀ (by norm_num) (by norm_num)
  have hi : fl ((10 ^ p : ℤ) : ℚ) = .fin (10 ^ p) := by
    unfold fl
    rw [if_neg h1, pow_ten_exact p hp]
  rw [hi]
  simp only [Bind.bind, Except.bind, fmul, fl, hprod]
  have h2 : ¬ 2 ^ (1024 : ℕ) ≤ |(10 : ℚ) ^ p * n| := by
    rw [not_le, abs_mul, abs_of_pos (by positivity)]
    refine lt_of_le_of_lt ?_ h53
    exact_mod_cast hn
  rw [if_neg h2]
  have : (10 : ℚ) ^ p * n = ((10 ^ p * n : ℤ) : ℚ) := by push_cast; rfl
  simp only [floatToInt, this, truncRat_int]

/-- The bound in `C04_int_float_identified` cannot be dropped: at the default precision the integer
`2**53 - 1` and the float with the same value get different integers. -/
theorem C04_large_values_not_identified :
    IsDouble ((2 ^ 53 - 1 : ℤ) : ℚ) ∧
    Coord.zoomInt defaultZoom (.int (2 ^ 53 - 1)) ≠
      Coord.zoomInt defaultZoom (.flt (.fin ((2 ^ 53 - 1 : ℤ) : ℚ))) := by
  constructor
  · refine ⟨flRat_int _ (by norm_num), ?_⟩
    rw [abs_of_pos (by norm_num)]
    exact lt_trans (b := (2 : ℚ) ^ 53) (by norm_num) (pow_lt_pow_right₀ (by norm_num) (by norm_num))
  · intro h
    have h1 : Coord.zoomInt defaultZoom (.int (2 ^ 53 - 1)) = .ok (10000 * (2 ^ 53 - 1)) := rfl
    rw [h1] at h
    have h2 := zoomInt_flt h.symm
    have hz : flRat ((defaultZoom : ℤ) : ℚ) = 10000 := flRat_int 10000 (by norm_num)
    rw [hz] at h2
    have hlog : Int.log 2 |(10000 : ℚ) * ((2 ^ 53 - 1 : ℤ) : ℚ)| = 66 := by
      rw [abs_of_pos (by norm_num)]
      have e : (10000 : ℚ) * ((2 ^ 53 - 1 : ℤ) : ℚ) = ((10000 * (2 ^ 53 - 1) : ℕ) : ℚ) := by norm_num
      rw [e, Int.log_natCast]
      have : Nat.log 2 (10000 * (2 ^ 53 - 1)) = 66 :=
        (Nat.log_eq_iff (by norm_num)).mpr ⟨by norm_num, by norm_num⟩
      rw [this]
      rfl
    have hu : ulpExp ((10000 : ℚ) * ((2 ^ 53 - 1 : ℤ) : ℚ)) = 14 := by
      unfold ulpExp
      rw [hlog]
      norm_num
    unfold flRat at h2
    rw [hu] at h2
    generalize roundHalfEven _ = r at h2
    have e : (r : ℚ) * 2 ^ (14 : ℤ) = ((r * 2 ^ 14 : ℤ) : ℚ) := by norm_num
    rw [e, truncRat_int] at h2
    omega

/-- **C04** (monotonicity for floats). -/
theorem C04_float_monotone (p : ℕ) (x y : ℚ) (k l : ℤ) (h : x ≤ y)
    (hx : Coord.zoomInt (10 ^ p) (.flt (.fin x)) = .ok k)
    (hy : Coord.zoomInt (10 ^ p) (.flt (.fin y)) = .ok l) : k ≤ l := by
  rw [zoomInt_flt hx, zoomInt_flt hy]
  apply truncRat_mono
  apply flRat_mono
  exact mul_le_mul_of_nonneg_left h (flRat_nonneg (by positivity))

/-- **C04** (non-finite floats).  An infinite coordinate raises OverflowError, a NaN ValueError (for a
precision up to 22). -/
theorem C04_non_finite (p : ℕ) (hp : p ≤ 22) (s : Bool) :
    Coord.zoomInt (10 ^ p) (.flt (.inf s)) = .error .overflowError ∧
    Coord.zoomInt (10 ^ p) (.flt .nan) = .error .valueError := by
  have h1 : ¬ 2 ^ (1024 : ℕ) ≤ |flRat ((10 ^ p : ℤ) : ℚ)| := by
    rw [pow_ten_exact p hp, not_le, abs_of_pos (by positivity)]
    calc (10 : ℚ) ^ p ≤ 10 ^ 22 := pow_le_pow_right₀ (by norm_num) hp
      _ ≤ 2 ^ 100 := by norm_num
      _ < 2 ^ 1024 := pow_lt_pow_right₀ (by norm_num) (by norm_num)
  have h0 : flRat ((10 ^ p : ℤ) : ℚ) ≠ 0 := by
    rw [pow_ten_exact p hp]
    positivity
  unfold Coord.zoomInt intToFloat
  simp only [fl, if_neg h1, Bind.bind, Except.bind, fmul, if_neg h0, floatToInt, and_self]

/-! ### Sites -/

/-- The exact value of a coordinate (`none` for infinities and NaN). -/
def Coord.value? : Coord → Option ℚ
  | .int n => some n
  | .flt (.fin x) => some x
  | _ => none

/-- `c` is given as an integer. -/
def Coord.isInt : Coord → Bool
  | .int _ => true
  | _ => false

theorem zoomInt_value {Z : ℤ} {c : Coord} {k : ℤ} (h : c.zoomInt Z = .ok k) : ∃ x, c.value? = some x := by
  cases c with
  | int n => exact ⟨n, rfl⟩
  | flt f =>
    cases f with
    | fin x => exact ⟨x, rfl⟩
    | inf s =>
      exfalso
      unfold Coord.zoomInt intToFloat at h
      rcases hz : fl (Z : ℚ) with q | b | _ <;> rw [hz] at h
      · simp only [Bind.bind, Except.bind, fmul] at h
        split at h <;> cases h
      · cases h
      · cases h
    | nan =>
      exfalso
      unfold Coord.zoomInt intToFloat at h
      rcases hz : fl (Z : ℚ) with q | b | _ <;> rw [hz] at h
      · simp only [Bind.bind, Except.bind, fmul] at h
        cases h
      · cases h
      · cases h

/-- any two coordinates with the same integer are close, whichever types they have -/
theorem coord_close (p : ℕ) (c d : Coord) (x y : ℚ) (k : ℤ) (hc : c.value? = some x)
    (hd : d.value? = some y) (h1 : c.zoomInt (10 ^ p) = .ok k) (h2 : d.zoomInt (10 ^ p) = .ok k) :
    |x - y| < 2 / 10 ^ p + (|x| + |y|) / 2 ^ 50 + 1 / 2 ^ 1000 := by
  have mixed : ∀ (n : ℤ) (y : ℚ), Coord.zoomInt (10 ^ p) (.flt (.fin y)) = .ok (10 ^ p * n) →
      |(n : ℚ) - y| < 2 / 10 ^ p + (|(n : ℚ)| + |y|) / 2 ^ 50 + 1 / 2 ^ 1000 := by
    intro n y h
    have h' := zoomInt_flt h
    have hZ : (1 : ℤ) ≤ 10 ^ p := one_le_pow₀ (by norm_num)
    have b := product_error (10 ^ p) hZ y
    have d := truncRat_near (flRat (flRat ((10 ^ p : ℤ) : ℚ) * y))
    rw [← h'] at d
    generalize flRat (flRat ((10 ^ p : ℤ) : ℚ) * y) = Y at *
    push_cast at b d
    have hZq : (1 : ℚ) ≤ 10 ^ p := one_le_pow₀ (by norm_num)
    generalize (10 : ℚ) ^ p = Z at *
    have hsub : (1 : ℚ) / 2 ^ 1075 * 2 ≤ 1 / 2 ^ 1000 / 2 ^ 53 := by
      rw [div_div, ← pow_add, div_mul_eq_mul_div, div_le_div_iff₀ (by positivity) (by positivity),
        one_mul, one_mul, ← pow_succ']
      exact pow_le_pow_right₀ (by norm_num) (by norm_num)
    have ht : (0 : ℚ) ≤ 1 / 2 ^ 1075 := by positivity
    have hu1 : (1 : ℚ) / 2 ^ 1000 ≤ 1 := by
      rw [div_le_one (by positivity)]
      exact one_le_pow₀ (by norm_num)
    have hu0 : (0 : ℚ) < 1 / 2 ^ 1000 := by positivity
    rw [show |y| / 2 ^ 1075 * 2 = (1 / 2 ^ 1075 * 2) * |y| by ring] at b
    generalize (1 : ℚ) / 2 ^ 1075 = t at *
    generalize (1 : ℚ) / 2 ^ 1000 = u at *
    have hyn : 0 ≤ |y| := abs_nonneg y
    have e : |Z * n - Z * y| < 1 + (|Z * y| / 2 ^ 51 + t + t * 2 * |y|) := by
      rw [abs_lt] at d
      rw [abs_le] at b
      rw [abs_lt]
      constructor <;> linarith [d.1, d.2, b.1, b.2]
    have hZ0 : 0 < Z := by linarith
    rw [← mul_sub, abs_mul, abs_mul, abs_of_pos hZ0] at e
    have h2 : t * 2 * |y| ≤ Z * |y| / 2 ^ 53 := by
      have : t * 2 ≤ 1 / 2 ^ 53 := by
        refine le_trans hsub ?_
        gcongr
      calc t * 2 * |y| ≤ 1 / 2 ^ 53 * |y| := mul_le_mul_of_nonneg_right this hyn
        _ ≤ 1 / 2 ^ 53 * (Z * |y|) := by
            apply mul_le_mul_of_nonneg_left _ (by norm_num)
            nlinarith
        _ = _ := by ring
    have h3 : t ≤ Z * u := by
      calc t ≤ t * 2 := by linarith
        _ ≤ u / 2 ^ 53 := hsub
        _ ≤ u := div_le_self hu0.le (by norm_num)
        _ ≤ Z * u := by nlinarith
    have goal' : Z * |(n : ℚ) - y| < Z * (2 / Z + (|(n : ℚ)| + |y|) / 2 ^ 50 + u) := by
      rw [mul_add, mul_add, mul_div_cancel₀ _ hZ0.ne']
      have hZx : 0 ≤ Z * |(n : ℚ)| := mul_nonneg hZ0.le (abs_nonneg _)
      have hZy : 0 ≤ Z * |y| := mul_nonneg hZ0.le hyn
      have : Z * ((|(n : ℚ)| + |y|) / 2 ^ 50) = Z * |(n : ℚ)| / 2 ^ 50 + Z * |y| / 2 ^ 50 := by ring
      rw [this]
      linarith
    exact lt_of_mul_lt_mul_left goal' hZ0.le
  cases c with
  | int n =>
    cases d with
    | int m =>
      have := C04_integers_never_identified p n m k h1 h2
      subst this
      simp only [Coord.value?, Option.some.injEq] at hc hd
      rw [← hc, ← hd, sub_self, abs_zero]
      positivity
    | flt f =>
      cases f with
      | fin y' =>
        simp only [Coord.value?, Option.some.injEq] at hc hd
        subst hc hd
        cases h1
        exact mixed n y' h2
      | inf s => cases hd
      | nan => cases hd
  | flt f =>
    cases f with
    | fin x' =>
      simp only [Coord.value?, Option.some.injEq] at hc
      subst hc
      cases d with
      | int m =>
        simp only [Coord.value?, Option.some.injEq] at hd
        subst hd
        cases h2
        have := mixed m x' h1
        rwa [abs_sub_comm, add_comm |(m : ℚ)|] at this
      | flt g =>
        cases g with
        | fin y' =>
          simp only [Coord.value?, Option.some.injEq] at hd
          subst hd
          exact C04_float_soundness p x' y' k h1 h2
        | inf s => cases hd
        | nan => cases hd
    | inf s => cases hc
    | nan => cases hc

theorem siteInit_ok {Z : ℤ} {l : List Coord} {a : SiteID} (h : SiteID.init Z l = .ok a) :
    List.Forall₂ (fun c k => Coord.zoomInt Z c = .ok k) l a.tuple := by
  unfold SiteID.init at h
  rw [bind_ok_iff] at h
  obtain ⟨_, -, h⟩ := h
  rw [bind_ok_iff] at h
  obtain ⟨t, ht, h⟩ := h
  cases h
  exact mapM_ok_iff.mp ht

/-- **C04** (sites).  Under precision `p`, if the sites built from the coordinates `xs` and `ys` compare
equal, then the coordinate lists have the same length and corresponding coordinates have finite values
that differ by less than `2 * 10**-p` up to rounding; where both are integers they are equal. -/
theorem C04_site_soundness (p : ℕ) (xs ys : List Coord) (a b : SiteID)
    (ha : SiteID.init (10 ^ p) xs = .ok a) (hb : SiteID.init (10 ^ p) ys = .ok b)
    (heq : a.rich .eq b = true) :
    List.Forall₂ (fun c d => ∃ x y, c.value? = some x ∧ d.value? = some y ∧
      |x - y| < 2 / 10 ^ p + (|x| + |y|) / 2 ^ 50 + 1 / 2 ^ 1000 ∧
      (c.isInt = true → d.isInt = true → x = y)) xs ys := by
  have h1 := siteInit_ok ha
  have h2 := siteInit_ok hb
  have ht : a.tuple = b.tuple := by
    rw [siteRich_eq] at heq
    simpa [linRich] using heq
  rw [← ht] at h2
  generalize a.tuple = t at h1 h2
  clear ha hb heq ht
  induction h1 generalizing ys with
  | nil =>
    cases h2
    exact .nil
  | @cons c k l t hc _ ih =>
    cases h2 with
    | cons hd h2 =>
      rename_i d ys
      refine .cons ?_ (ih ys h2)
      obtain ⟨x, hx⟩ := zoomInt_value hc
      obtain ⟨y, hy⟩ := zoomInt_value hd
      refine ⟨x, y, hx, hy, coord_close p c d x y k hx hy hc hd, ?_⟩
      intro h1 h2
      cases c with
      | flt f => cases h1
      | int n =>
        cases d with
        | flt f => cases h2
        | int m =>
          have := C04_integers_never_identified p n m k hc hd
          subst this
          exact Option.some.inj (hx.symm.trans hy)

theorem int_monotone (p : ℕ) (m n k l : ℤ) (h : m ≤ n)
    (hm : Coord.zoomInt (10 ^ p) (.int m) = .ok k) (hn : Coord.zoomInt (10 ^ p) (.int n) = .ok l) :
    k ≤ l := by
  cases hm
  cases hn
  exact mul_le_mul_of_nonneg_left h (by positivity)

/-- **C04** (order of sites).  If every coordinate of one site is at most the corresponding one of
another (compared as exact values, each pair being two floats or two ints), then the first site is
`<=` the second. -/
theorem C04_site_monotone (p : ℕ) (xs ys : List Coord) (a b : SiteID)
    (ha : SiteID.init (10 ^ p) xs = .ok a) (hb : SiteID.init (10 ^ p) ys = .ok b)
    (hle : List.Forall₂ (fun c d => c.isInt = d.isInt ∧
      ∃ x y, c.value? = some x ∧ d.value? = some y ∧ x ≤ y) xs ys) :
    a.rich .le b = true := by
  have h1 := siteInit_ok ha
  have h2 := siteInit_ok hb
  rw [siteRich_eq]
  simp only [linRich, decide_eq_true_eq]
  generalize a.tuple = t at h1
  generalize b.tuple = u at h2
  clear ha hb
  induction hle generalizing t u with
  | nil =>
    cases h1
    cases h2
    exact le_rfl
  | @cons c d xs ys hcd _ ih =>
    cases h1 with
    | cons hc h1 =>
      cases h2 with
      | cons hd h2 =>
        rename_i k t l u
        have hkl : k ≤ l := by
          obtain ⟨hi, x, y, hx, hy, hxy⟩ := hcd
          cases c with
          | int m =>
            cases d with
            | int n =>
              simp only [Coord.value?, Option.some.injEq] at hx hy
              rw [← hx, ← hy] at hxy
              exact int_monotone p m n k l (by exact_mod_cast hxy) hc hd
            | flt g => cases hi
          | flt f =>
            cases d with
            | int n => cases hi
            | flt g =>
              cases f with
              | fin x' =>
                cases g with
                | fin y' =>
                  simp only [Coord.value?, Option.some.injEq] at hx hy
                  rw [← hx, ← hy] at hxy
                  exact C04_float_monotone p x' y' k l hxy hc hd
                | inf s => cases hy
                | nan => cases hy
              | inf s => cases hx
              | nan => cases hx
        have ht := ih _ h1 _ h2
        rw [← not_lt] at ht hkl ⊢
        rw [List.cons_lt_cons_iff]
        rintro (h | ⟨-, h⟩)
        · exact hkl h
        · exact ht h

/-- Non-vacuity of C04: at the default precision the coordinates `3` and `3.0` get the same integer. -/
example : Coord.zoomInt (10 ^ 4) (.int 3) = .ok 30000 ∧
    Coord.zoomInt (10 ^ 4) (.flt (.fin 3)) = .ok 30000 := by
  have := C04_int_float_identified 4 (by norm_num) 3 (by norm_num)
  simpa using this

/-- Non-vacuity of the site theorems: a two-dimensional site with an int and a float coordinate. -/
example : ∃ a, SiteID.init (10 ^ 4) [.int 3, .flt (.fin (-2))] = .ok a ∧ a.tuple = [30000, -20000] := by
  have h := (C04_int_float_identified 4 (by norm_num) (-2) (by norm_num)).2
  refine ⟨⟨[.int 3, .flt (.fin (-2))], [30000, -20000]⟩, ?_, rfl⟩
  unfold SiteID.init
  have e : ((-2 : ℤ) : ℚ) = -2 := by norm_num
  rw [e] at h
  simp only [List.mapM_cons, List.mapM_nil, h]
  rfl

end Verif
