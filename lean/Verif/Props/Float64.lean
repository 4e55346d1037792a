import Verif.Props.Precision
import Verif.Proofs.PandC
import Verif.Spec.Float64
/-!
# The float arithmetic used in C04, C39, C55, C61 and C78 is that of IEEE double precision
-/

set_option exponentiation.threshold 1100

namespace Verif

theorem two_zpow_nat (k : ℕ) : (2 : ℚ) ^ (k : ℤ) = 2 ^ k := zpow_natCast _ _

theorem round_best (x : ℚ) (n : ℤ) : |(roundHalfEven x : ℚ) - x| ≤ |(n : ℚ) - x| := by
  have h := roundHalfEven_near x
  by_contra hc
  push Not at hc
  have h1 : |((roundHalfEven x : ℤ) : ℚ) - n| < 1 := by
    have := abs_sub_le ((roundHalfEven x : ℤ) : ℚ) x n
    rw [abs_sub_comm x] at this
    linarith
  have h2 : |roundHalfEven x - n| < 1 := by exact_mod_cast h1
  have h3 : roundHalfEven x = n := by
    have := abs_lt.1 h2
    omega
  rw [h3] at hc
  exact lt_irrefl _ hc

theorem round_tie {x : ℚ} {n : ℤ} (hn : n ≠ roundHalfEven x) (h : |(n : ℚ) - x| = |(roundHalfEven x : ℚ) - x|) :
    |n - roundHalfEven x| = 1 ∧ Even (roundHalfEven x) := by
  have hr := roundHalfEven_near x
  have h0 : |(n : ℚ) - roundHalfEven x| ≤ 1 := by
    have := abs_sub_le (n : ℚ) x (roundHalfEven x)
    rw [h, abs_sub_comm x] at this
    linarith
  have h1 : |n - roundHalfEven x| ≤ 1 := by exact_mod_cast h0
  have h2 : |n - roundHalfEven x| = 1 := by
    have h4 : 0 < |n - roundHalfEven x| := abs_pos.2 (sub_ne_zero.2 hn)
    omega
  refine ⟨h2, ?_⟩
  have h3 : 1 / 2 ≤ |(roundHalfEven x : ℚ) - x| := by
    have h5 : |(n : ℚ) - roundHalfEven x| = 1 := by exact_mod_cast h2
    have := abs_sub_le (n : ℚ) x (roundHalfEven x)
    rw [h, abs_sub_comm x, h5] at this
    linarith
  have p1 : (⌊x⌋ : ℚ) ≤ x := Int.floor_le x
  have p2 : x < ⌊x⌋ + 1 := Int.lt_floor_add_one x
  unfold roundHalfEven at h3 ⊢
  simp only at h3 ⊢
  split_ifs at h3 ⊢ with c1 c2 c3
  · rw [abs_sub_comm, abs_of_nonneg (by linarith)] at h3; linarith
  · push_cast at h3
    rw [abs_of_nonneg (by linarith)] at h3; linarith
  · exact Int.even_iff.2 c3
  · rw [Int.even_iff]; omega

theorem rep_exact {r : ℚ} (h : BinaryRep r) : flRat r = r := by
  obtain ⟨m, e, h1, h2, rfl⟩ := h
  exact flRat_exact m e h1.le h2

theorem rep_multiple {r : ℚ} (h : BinaryRep r) : ∃ k : ℤ, r = k * 2 ^ ulpExp r :=
  ⟨_, (rep_exact h).symm⟩

theorem ulp_ge (q : ℚ) : -1074 ≤ ulpExp q := by unfold ulpExp; omega

/-- Between a number and a double there is a multiple of the unit in the last place of the number. -/
theorem grid_between {q r : ℚ} (hq : 0 < q) (h : BinaryRep r) :
    ∃ n : ℤ, (r ≤ n * 2 ^ ulpExp q ∧ n * 2 ^ ulpExp q ≤ q) ∨ (q ≤ n * 2 ^ ulpExp q ∧ n * 2 ^ ulpExp q ≤ r) := by
  obtain ⟨k, hk⟩ := rep_multiple h
  rcases le_or_gt (ulpExp q) (ulpExp r) with hle | hlt
  · refine ⟨k * 2 ^ (ulpExp r - ulpExp q).toNat, ?_⟩
    have e : ((k * 2 ^ (ulpExp r - ulpExp q).toNat : ℤ) : ℚ) * 2 ^ ulpExp q = r := by
      conv_rhs => rw [hk]
      push_cast
      rw [← two_zpow_nat, mul_assoc, ← zpow_add₀ (by norm_num)]
      congr 2
      omega
    rw [e]
    rcases le_total r q with h' | h'
    · exact Or.inl ⟨le_refl _, h'⟩
    · exact Or.inr ⟨h', le_refl _⟩
  · have hr0 : r = 0 ∨ r ≠ 0 := eq_or_ne r 0
    have h2 := (ulp_cases q hq.ne').2
    have hge := ulp_ge r
    have h2 : (2 : ℚ) ^ (ulpExp q + 52) ≤ q := by
      rcases h2 with h2 | h2
      · omega
      · rwa [abs_of_pos hq] at h2
    refine ⟨2 ^ 52, Or.inl ⟨?_, ?_⟩⟩
    · have e : ((2 ^ 52 : ℤ) : ℚ) * 2 ^ ulpExp q = 2 ^ (ulpExp q + 52) := by
        rw [zpow_add₀ (by norm_num), mul_comm]; norm_num
      rw [e]
      rcases hr0 with h0 | h0
      · rw [h0]; exact (two_zpow_pos _).le
      · refine le_trans (le_abs_self r) (le_trans (ulp_cases r h0).1.le ?_)
        exact zpow_le_zpow_right₀ (by norm_num) (by omega)
    · have e : ((2 ^ 52 : ℤ) : ℚ) * 2 ^ ulpExp q = 2 ^ (ulpExp q + 52) := by
        rw [zpow_add₀ (by norm_num), mul_comm]; norm_num
      rw [e]
      exact h2

theorem flRat_grid (q : ℚ) (n : ℤ) : |flRat q - q| ≤ |n * 2 ^ ulpExp q - q| := by
  have hp := two_zpow_pos (ulpExp q)
  have h := round_best (q / 2 ^ ulpExp q) n
  have e : ∀ k : ℤ, (k : ℚ) * 2 ^ ulpExp q - q = (k - q / 2 ^ ulpExp q) * 2 ^ ulpExp q := fun k => by
    rw [sub_mul, div_mul_cancel₀ _ hp.ne']
  unfold flRat
  rw [e, e, abs_mul, abs_mul]
  exact mul_le_mul_of_nonneg_right h (abs_nonneg _)

theorem nearest_pos {q r : ℚ} (hq : 0 < q) (h : BinaryRep r) : |flRat q - q| ≤ |r - q| ∧
    (|r - q| = |flRat q - q| → r ≠ flRat q → ∃ m : ℤ, Even m ∧ flRat q = m * |r - flRat q|) := by
  obtain ⟨n, hn⟩ := grid_between hq h
  have hp := two_zpow_pos (ulpExp q)
  have h1 := flRat_grid q n
  have h2 : |n * 2 ^ ulpExp q - q| ≤ |r - q| := by
    rcases hn with ⟨a, b⟩ | ⟨a, b⟩
    · rw [abs_sub_comm, abs_sub_comm r, abs_of_nonneg (by linarith), abs_of_nonneg (by linarith)]; linarith
    · rw [abs_of_nonneg (by linarith), abs_of_nonneg (by linarith)]; linarith
  refine ⟨le_trans h1 h2, fun he hne => ?_⟩
  have hr : r = n * 2 ^ ulpExp q := by
    have h3 : |n * 2 ^ ulpExp q - q| = |r - q| := le_antisymm h2 (by rw [he]; exact h1)
    rcases hn with ⟨a, b⟩ | ⟨a, b⟩
    · rw [abs_sub_comm, abs_sub_comm r, abs_of_nonneg (by linarith), abs_of_nonneg (by linarith)] at h3; linarith
    · rw [abs_of_nonneg (by linarith), abs_of_nonneg (by linarith)] at h3; linarith
  have e : ∀ k : ℤ, (k : ℚ) * 2 ^ ulpExp q - q = (k - q / 2 ^ ulpExp q) * 2 ^ ulpExp q := fun k => by
    rw [sub_mul, div_mul_cancel₀ _ hp.ne']
  have hnr : n ≠ roundHalfEven (q / 2 ^ ulpExp q) := by
    rintro rfl
    exact hne hr
  have he' : |(n : ℚ) - q / 2 ^ ulpExp q| = |(roundHalfEven (q / 2 ^ ulpExp q) : ℚ) - q / 2 ^ ulpExp q| := by
    rw [hr] at he
    unfold flRat at he
    rw [e, e, abs_mul, abs_mul] at he
    exact mul_right_cancel₀ (abs_pos.2 hp.ne').ne' he
  obtain ⟨t1, t2⟩ := round_tie hnr he'
  refine ⟨_, t2, ?_⟩
  rw [hr]
  unfold flRat
  rw [← sub_mul, abs_mul, abs_of_pos hp]
  have : |((n : ℤ) : ℚ) - roundHalfEven (q / 2 ^ ulpExp q)| = 1 := by exact_mod_cast t1
  rw [this, one_mul]

theorem rep_neg {r : ℚ} (h : BinaryRep r) : BinaryRep (-r) := by
  obtain ⟨m, e, h1, h2, rfl⟩ := h
  exact ⟨-m, e, by rwa [abs_neg], h2, by push_cast; ring⟩

theorem nearest_all (q r : ℚ) (h : BinaryRep r) : |flRat q - q| ≤ |r - q| ∧
    (|r - q| = |flRat q - q| → r ≠ flRat q → ∃ m : ℤ, Even m ∧ flRat q = m * |r - flRat q|) := by
  rcases lt_trichotomy q 0 with hq | rfl | hq
  · obtain ⟨h1, h2⟩ := nearest_pos (q := -q) (by linarith) (rep_neg h)
    rw [flRat_neg] at h1 h2
    have e : ∀ a b : ℚ, |-a - -b| = |a - b| := fun a b => by rw [← neg_sub', abs_neg]
    rw [e, e] at h1
    refine ⟨h1, fun a b => ?_⟩
    obtain ⟨m, hm, he⟩ := h2 (by rw [e, e]; exact a) (fun h => b (neg_injective h))
    rw [e] at he
    exact ⟨-m, hm.neg, by push_cast; linarith⟩
  · rw [flRat_zero]
    refine ⟨by simp, fun a b => ?_⟩
    simp at a
    exact absurd a b
  · exact nearest_pos hq h

theorem flRat_rep (q : ℚ) : BinaryRep (flRat q) := by
  rcases eq_or_ne q 0 with rfl | hq
  · exact ⟨0, 0, by norm_num, by norm_num, by rw [flRat_zero]; simp⟩
  have hp := two_zpow_pos (ulpExp q)
  have h1 := (ulp_cases q hq).1
  have h2 : |roundHalfEven (q / 2 ^ ulpExp q)| ≤ 2 ^ 53 := by
    have e53 : (2 : ℚ) ^ (ulpExp q + 53) = 2 ^ 53 * 2 ^ ulpExp q := by
      rw [zpow_add₀ (by norm_num), mul_comm]; norm_num
    rw [e53, abs_lt] at h1
    have a := roundHalfEven_mono (p := q / 2 ^ ulpExp q) (q := ((2 ^ 53 : ℤ) : ℚ)) (by
      rw [div_le_iff₀ hp]; push_cast; exact h1.2.le)
    have b := roundHalfEven_mono (p := ((-2 ^ 53 : ℤ) : ℚ)) (q := q / 2 ^ ulpExp q) (by
      rw [le_div_iff₀ hp]; push_cast; linarith [h1.1])
    rw [roundHalfEven_int] at a b
    exact abs_le.2 ⟨b, a⟩
  rcases lt_or_eq_of_le h2 with h3 | h3
  · exact ⟨_, _, h3, ulp_ge q, rfl⟩
  · refine ⟨roundHalfEven (q / 2 ^ ulpExp q) / 2, ulpExp q + 1, ?_, by have := ulp_ge q; omega, ?_⟩
    · rcases (abs_eq (by positivity)).1 h3 with h | h <;> rw [h] <;> norm_num
    · unfold flRat
      rw [zpow_add₀ (by norm_num), zpow_one]
      rcases (abs_eq (by positivity)).1 h3 with h | h <;> rw [h] <;> norm_num <;> ring

theorem flRat_overflow : flRat (2 ^ 1024 - 2 ^ 970) = 2 ^ 1024 := by
  have h := flRat_eval (2 ^ 1024 - 2 ^ 970) 971 (2 ^ 53) (by norm_num) ?_ ?_ ?_
  · rw [h, show (971 : ℤ) = ((971 : ℕ) : ℤ) from rfl, two_zpow_nat]; norm_num
  · rw [show (971 + 52 : ℤ) = ((1023 : ℕ) : ℤ) from rfl, two_zpow_nat]; norm_num
  · rw [show (971 + 53 : ℤ) = ((1024 : ℕ) : ℤ) from rfl, two_zpow_nat]; norm_num
  · rw [show (971 : ℤ) = ((971 : ℕ) : ℤ) from rfl, two_zpow_nat]
    have : ((2 : ℚ) ^ 1024 - 2 ^ 970) / 2 ^ 971 = 2 ^ 53 - 1 / 2 := by norm_num
    rw [this]
    unfold roundHalfEven
    have hf : ⌊(2 : ℚ) ^ 53 - 1 / 2⌋ = 2 ^ 53 - 1 := by
      rw [Int.floor_eq_iff]; push_cast; constructor <;> norm_num
    simp only [hf]
    push_cast
    norm_num

theorem overflow_iff (q : ℚ) : 2 ^ 1024 ≤ |flRat q| ↔ 2 ^ 1024 - 2 ^ 970 ≤ |q| := by
  have key : ∀ q : ℚ, 0 ≤ q → (2 ^ 1024 ≤ flRat q ↔ 2 ^ 1024 - 2 ^ 970 ≤ q) := by
    intro q hq
    constructor
    · intro h
      by_contra hc
      push Not at hc
      have hs : BinaryRep (2 ^ 1024 - 2 ^ 971) :=
        ⟨2 ^ 53 - 1, 971, by norm_num, by norm_num, by
          rw [show (971 : ℤ) = ((971 : ℕ) : ℤ) from rfl, two_zpow_nat]; norm_num⟩
      have h1 := (nearest_all q _ hs).1
      rcases le_or_gt q (2 ^ 1024 - 2 ^ 971) with h2 | h2
      · have := flRat_mono h2
        rw [rep_exact hs] at this
        have : (0 : ℚ) < 2 ^ 971 := by positivity
        linarith
      · have h3 : (2 : ℚ) ^ 971 = 2 * 2 ^ 970 := by norm_num
        have h4 : (0 : ℚ) < 2 ^ 970 := by positivity
        rw [abs_of_nonneg (by linarith), abs_sub_comm, abs_of_nonneg (by linarith)] at h1
        linarith
    · intro h
      have := flRat_mono h
      rwa [flRat_overflow] at this
  rcases le_total 0 q with hq | hq
  · rw [abs_of_nonneg hq, abs_of_nonneg (flRat_nonneg hq)]; exact key q hq
  · have := key (-q) (by linarith)
    rw [flRat_neg] at this
    rw [abs_of_nonpos hq, abs_of_nonpos]
    · exact this
    · have := flRat_nonneg (q := -q) (by linarith)
      rw [flRat_neg] at this
      linarith

/-- **C04** (rounding).  The result of a float operation with the exact value `q` is infinite, with the sign of `q`, from
`2**1024 - 2**970` on; otherwise it is a double nearest to `q`, in case of a tie the one whose last digit is even. -/
theorem C04_rounding (q : ℚ) :
    (2 ^ 1024 - 2 ^ 970 ≤ |q| → fl q = .inf (decide (q < 0))) ∧
    (|q| < 2 ^ 1024 - 2 ^ 970 → ∃ r, fl q = .fin r ∧ BinaryRep r ∧
      ∀ s, BinaryRep s → |r - q| ≤ |s - q| ∧
        (|s - q| = |r - q| → s ≠ r → ∃ m : ℤ, Even m ∧ r = m * |s - r|)) := by
  constructor
  · intro h
    rcases fl_cases q with ⟨h1, -⟩ | ⟨-, h2⟩
    · exact absurd ((overflow_iff q).2 h) (not_le.2 h1)
    · exact h2
  · intro h
    rcases fl_cases q with ⟨-, h2⟩ | ⟨h1, -⟩
    · exact ⟨_, h2, flRat_rep q, fun s hs => nearest_all q s hs⟩
    · exact absurd ((overflow_iff q).1 h1) (not_le.2 h)

/-- Half-way between the doubles `2**53` and `2**53 + 2`. -/
example : ∃ r, fl (2 ^ 53 + 1) = .fin r ∧ r = 2 ^ 53 ∧ |(2 ^ 53 + 1 : ℚ)| < 2 ^ 1024 - 2 ^ 970 := by
  refine ⟨2 ^ 53, by decide +kernel, rfl, by norm_num⟩

/-- **C04** (float operations).  A product of two finite floats is the rounded exact product; other products follow the
IEEE rules: a NaN is kept, an infinity times zero is a NaN, otherwise the sign of the infinity is the product of the
signs. -/
theorem C04_products (x y : F64) : fmul x y = fmul y x ∧ fmul .nan y = .nan ∧
    (∀ a b, fmul (.fin a) (.fin b) = fl (a * b)) ∧
    (∀ s, fmul (.inf s) (.fin 0) = .nan) ∧
    (∀ s q, 0 < q → fmul (.inf s) (.fin q) = .inf s) ∧ (∀ s q, q < 0 → fmul (.inf s) (.fin q) = .inf (!s)) ∧
    (∀ s, fmul (.inf s) (.inf false) = .inf s) ∧ ∀ s, fmul (.inf s) (.inf true) = .inf (!s) := by
  refine ⟨?_, by simp [fmul], fun a b => rfl, fun s => by simp [fmul], fun s q hq => ?_, fun s q hq => ?_,
    fun s => by cases s <;> rfl, fun s => by cases s <;> rfl⟩
  · cases x <;> cases y <;> simp only [fmul]
    · rw [mul_comm]
    · rename_i s t; cases s <;> cases t <;> rfl
  · simp [fmul, hq.ne', not_lt.2 hq.le]
  · simp [fmul, hq.ne, hq]

/-- **C04** (the range of precisions).  Up to precision 308 an int and the equal float are identified when
`10**p * |n| <= 2**53`, an infinite coordinate raises OverflowError and a NaN ValueError; from precision 309 on, `10**p`
is not a float and every float coordinate, even 0.0, raises OverflowError, while ints are accepted. -/
theorem C04_precision_range (p : ℕ) :
    (p ≤ 308 → (∀ n : ℤ, 10 ^ p * |n| ≤ 2 ^ 53 →
        Coord.zoomInt (10 ^ p) (.int n) = .ok (10 ^ p * n) ∧ Coord.zoomInt (10 ^ p) (.flt (.fin n)) = .ok (10 ^ p * n)) ∧
      (∀ s, Coord.zoomInt (10 ^ p) (.flt (.inf s)) = .error .overflowError) ∧
      Coord.zoomInt (10 ^ p) (.flt .nan) = .error .valueError) ∧
    (309 ≤ p → (∀ x, Coord.zoomInt (10 ^ p) (.flt x) = .error .overflowError) ∧
      ∀ n, Coord.zoomInt (10 ^ p) (.int n) = .ok (10 ^ p * n)) := by
  have habs : |((10 ^ p : ℤ) : ℚ)| = 10 ^ p := by push_cast; exact abs_of_pos (by positivity)
  refine ⟨fun hp => ?_, fun hp => ?_⟩
  · have hlt : |((10 ^ p : ℤ) : ℚ)| < 2 ^ 1024 - 2 ^ 970 := by
      rw [habs]
      exact (pow_le_pow_right₀ (by norm_num) hp).trans_lt (by norm_num)
    have hf : fl ((10 ^ p : ℤ) : ℚ) = .fin (flRat ((10 ^ p : ℤ) : ℚ)) := by
      rcases fl_cases ((10 ^ p : ℤ) : ℚ) with ⟨-, h2⟩ | ⟨h1, -⟩
      · exact h2
      · exact absurd ((overflow_iff _).1 h1) (not_le.2 hlt)
    have hne : flRat ((10 ^ p : ℤ) : ℚ) ≠ 0 := by
      have h1 := flRat_mono (p := 1) (q := ((10 ^ p : ℤ) : ℚ)) (by push_cast; exact one_le_pow₀ (by norm_num))
      have h2 := flRat_int 1 (by norm_num)
      rw [show ((1 : ℤ) : ℚ) = 1 by norm_num] at h2
      rw [h2] at h1
      linarith
    refine ⟨fun n hn => ?_, fun s => ?_, ?_⟩
    · rcases Nat.lt_or_ge 22 p with h | h
      · have hn0 : n = 0 := by
          by_contra h0
          have h1 : (1 : ℤ) ≤ |n| := Int.one_le_abs h0
          have h2 : (10 : ℤ) ^ 23 ≤ 10 ^ p := pow_le_pow_right₀ (by norm_num) h
          have h3 : (10 : ℤ) ^ p ≤ 10 ^ p * |n| := le_mul_of_one_le_right (by positivity) h1
          have h4 : (2 : ℤ) ^ 53 < 10 ^ 23 := by norm_num
          omega
        subst hn0
        refine ⟨rfl, ?_⟩
        unfold Coord.zoomInt intToFloat
        rw [hf]
        simp only [Bind.bind, Except.bind, fmul, Int.cast_zero, mul_zero]
        decide +kernel
      · exact C04_int_float_identified p h n hn
    · unfold Coord.zoomInt intToFloat
      rw [hf]
      simp only [Bind.bind, Except.bind, fmul, if_neg hne, floatToInt]
    · unfold Coord.zoomInt intToFloat
      rw [hf]
      simp only [Bind.bind, Except.bind, fmul, floatToInt]
  · refine ⟨fun x => ?_, fun n => rfl⟩
    have hle : 2 ^ 1024 - 2 ^ 970 ≤ |((10 ^ p : ℤ) : ℚ)| := by
      rw [habs]
      exact le_trans (by norm_num) (pow_le_pow_right₀ (by norm_num : (1 : ℚ) ≤ 10) hp)
    have hf := (C04_rounding ((10 ^ p : ℤ) : ℚ)).1 hle
    unfold Coord.zoomInt intToFloat
    rw [hf]
    rfl

end Verif
