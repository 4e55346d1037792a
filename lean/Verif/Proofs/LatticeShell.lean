import Verif.Proofs.Lattice
import Mathlib.Tactic.Ring
import Mathlib.Algebra.BigOperators.Fin
import Mathlib.Tactic.FinCases
/-!
Helper lemmas: bases for which the shells of translations are monotone.
-/

namespace Verif.Latt

variable {m k : ℕ}

theorem gram_comm (v : Fin k → Pt m) (i j : Fin k) : gram v i j = gram v j i := by
  unfold gram; exact Finset.sum_congr rfl fun a _ => mul_comm _ _

theorem gram_self_nonneg (v : Fin k → Pt m) (i : Fin k) : 0 ≤ gram v i i :=
  Finset.sum_nonneg fun _ _ => mul_self_nonneg _

/-- The bilinear form. -/
theorem sum_comb_mul (v : Fin k → Pt m) (c d : Fin k → ℤ) :
    ∑ a, comb v c a * comb v d a = ∑ i, (c i : ℝ) * ∑ j, gram v i j * d j := by
  have : ∀ a, comb v c a * comb v d a = ∑ i, ∑ j, (c i : ℝ) * (d j : ℝ) * (v i a * v j a) := by
    intro a
    rw [comb, comb, Finset.sum_mul_sum]
    exact Finset.sum_congr rfl fun i _ => Finset.sum_congr rfl fun j _ => by ring
  rw [Finset.sum_congr rfl fun a _ => this a, Finset.sum_comm]
  refine Finset.sum_congr rfl fun i _ => ?_
  rw [Finset.sum_comm, Finset.mul_sum]
  refine Finset.sum_congr rfl fun j _ => ?_
  rw [← Finset.mul_sum, gram]; ring

theorem nnorm_le_of_sq {p q : Pt m} (h : ∑ a, p a ^ 2 ≤ ∑ a, q a ^ 2) : nnorm p ≤ nnorm q :=
  Real.sqrt_le_sqrt h

/-- It is enough to go down one shell at a time. -/
theorem shellMonotone_of_step (v : Fin k → Pt m)
    (h : ∀ (c : Fin k → ℤ) (t : ℤ), 2 ≤ t → OnShell c t →
      ∃ d, OnShell d (t - 1) ∧ nnorm (comb v d) ≤ nnorm (comb v c)) : ShellMonotone v := by
  intro c t s hc hs hst
  obtain ⟨q, hq⟩ : ∃ q : ℕ, t = s + q := ⟨(t - s).toNat, by omega⟩
  induction q generalizing c t with
  | zero => exact ⟨c, by simpa [hq] using hc, le_rfl⟩
  | succ q ih =>
    obtain ⟨d, hd, hdc⟩ := h c t (by push_cast at hq; omega) hc
    obtain ⟨e, he, hed⟩ := ih d (t - 1) hd (by push_cast at hq; omega) (by push_cast at hq; omega)
    exact ⟨e, he, hed.trans hdc⟩

theorem shellMonotone_of_weaklyOrthogonal (v : Fin k → Pt m) (hv : WeaklyOrthogonal v) :
    ShellMonotone v := by
  classical
  refine shellMonotone_of_step v fun c t ht hc => ?_
  let e : Fin k → ℤ := fun i => if c i = t then 1 else if c i = -t then -1 else 0
  refine ⟨c - e, ⟨fun i => ?_, ?_⟩, ?_⟩
  · have := abs_le.1 (hc.1 i)
    simp only [Pi.sub_apply, e]
    rw [abs_le]
    split_ifs <;> omega
  · obtain ⟨i, hi⟩ := hc.2
    refine ⟨i, ?_⟩
    simp only [Pi.sub_apply, e]
    rcases (abs_eq (by omega)).1 hi with h | h
    · rw [if_pos h, h, abs_of_nonneg]; omega
    · rw [if_neg (by omega), if_pos h, h, abs_of_nonpos] <;> omega
  · refine nnorm_le_of_sq ?_
    set f : Fin k → ℤ := c + (c - e) with hf
    have key : ∑ a, comb v c a ^ 2 - ∑ a, comb v (c - e) a ^ 2 = ∑ a, comb v e a * comb v f a := by
      rw [← Finset.sum_sub_distrib]
      refine Finset.sum_congr rfl fun a _ => ?_
      rw [hf, comb_add, comb_sub]
      simp only [Pi.add_apply, Pi.sub_apply]; ring
    have hfb : ∀ j, |(f j : ℝ)| ≤ 2 * t - 1 := by
      intro j
      have := abs_le.1 (hc.1 j)
      have : |f j| ≤ 2 * t - 1 := by
        simp only [hf, Pi.add_apply, Pi.sub_apply, e]
        rw [abs_le]
        split_ifs <;> omega
      exact_mod_cast this
    have hpos : 0 ≤ ∑ a, comb v e a * comb v f a := by
      rw [sum_comb_mul]
      refine Finset.sum_nonneg fun i _ => ?_
      by_cases h0 : e i = 0
      · simp [h0]
      · have he : (e i : ℝ) * f i = 2 * t - 1 ∧ |(e i : ℝ)| = 1 := by
          simp only [hf, Pi.add_apply, Pi.sub_apply, e] at h0 ⊢
          split_ifs at h0 ⊢ with h1 h2
          · rw [h1]; push_cast; constructor
            · ring
            · simp
          · rw [h2]; push_cast; constructor
            · ring
            · simp
          · exact absurd rfl h0
        rw [← Finset.add_sum_erase _ _ (Finset.mem_univ i), mul_add]
        have h1 : (e i : ℝ) * (gram v i i * f i) = gram v i i * (2 * t - 1) := by
          rw [← he.1]; ring
        have h2 : |(e i : ℝ) * ∑ j ∈ Finset.univ.erase i, gram v i j * f j| ≤
            (∑ j ∈ Finset.univ.erase i, |gram v i j|) * (2 * t - 1) := by
          rw [abs_mul, he.2, one_mul, Finset.sum_mul]
          refine (Finset.abs_sum_le_sum_abs _ _).trans (Finset.sum_le_sum fun j _ => ?_)
          rw [abs_mul]
          exact mul_le_mul_of_nonneg_left (hfb j) (abs_nonneg _)
        have h3 : (0 : ℝ) ≤ 2 * t - 1 := by
          have : (2 : ℝ) ≤ t := by exact_mod_cast ht
          linarith
        have h4 := mul_le_mul_of_nonneg_right (hv i) h3
        have := abs_le.1 h2
        rw [h1]; linarith [this.1]
    linarith

/-- One translation vector: always. -/
theorem weaklyOrthogonal_one (v : Fin 1 → Pt m) : WeaklyOrthogonal v := by
  intro i
  rw [Finset.sum_eq_zero]
  · exact gram_self_nonneg v i
  · intro j hj; exact absurd (Subsingleton.elim j i) (Finset.mem_erase.1 hj).1

theorem weaklyOrthogonal_zero (v : Fin 0 → Pt m) : WeaklyOrthogonal v := fun i => i.elim0

theorem comb_two (v : Fin 2 → Pt m) (c : Fin 2 → ℤ) : ∑ a, comb v c a ^ 2 =
    gram v 0 0 * c 0 ^ 2 + 2 * gram v 0 1 * (c 0 * c 1) + gram v 1 1 * c 1 ^ 2 := by
  have := sum_comb_mul v c c
  simp only [Fin.sum_univ_two, gram_comm v 1 0] at this
  rw [Finset.sum_congr rfl fun a _ => sq (comb v c a), this]; ring

theorem wide_aux {A B g x y t : ℝ} (hA : 0 ≤ A) (hg : 4 * g ^ 2 ≤ A * B) (ht : 2 ≤ t)
    (hx : |x| = t) (h : A * (2 * t - 1) < 2 * |g| * |y|) :
    A * (t - 1) ^ 2 ≤ A * x ^ 2 + 2 * g * (x * y) + B * y ^ 2 := by
  have hA' : 0 < A := by
    rcases hA.lt_or_eq with h1 | h1
    · exact h1
    · rw [← h1] at hg h
      have : g = 0 := by nlinarith [sq_nonneg g]
      rw [this] at h; simp at h
  set u := 2 * |g| * |y| with hu
  have h1 : -(t * u) ≤ 2 * g * (x * y) := by
    have := neg_abs_le (2 * g * (x * y))
    rw [abs_mul, abs_mul, abs_mul, hx, abs_of_pos (by norm_num : (0 : ℝ) < 2)] at this
    rw [hu]; linarith
  have h2 : u ^ 2 ≤ A * (B * y ^ 2) := by
    rw [hu, mul_pow, mul_pow, sq_abs, sq_abs]
    nlinarith [sq_nonneg y]
  have h3 : x ^ 2 = t ^ 2 := by rw [← hx, sq_abs]
  rw [h3]
  have h4 : t * A ≤ u := by nlinarith
  have h5 : 0 ≤ A * (B * y ^ 2 - t * u) := by nlinarith [mul_nonneg hA'.le (by linarith : 0 ≤ t)]
  have h6 : 0 ≤ B * y ^ 2 - t * u := by
    by_contra hcon
    push Not at hcon
    nlinarith
  nlinarith

theorem wide_corner {A B g x y t : ℝ} (hA : 0 ≤ A) (hAB : A ≤ B) (hg : 4 * g ^ 2 ≤ A * B)
    (ht : 2 ≤ t) (hx : |x| = t) (hy : |y| = t) :
    A * (t - 1) ^ 2 ≤ A * x ^ 2 + 2 * g * (x * y) + B * y ^ 2 := by
  have h1 : -(2 * |g| * t ^ 2) ≤ 2 * g * (x * y) := by
    have := neg_abs_le (2 * g * (x * y))
    rw [abs_mul, abs_mul, abs_mul, hx, hy, abs_of_pos (by norm_num : (0 : ℝ) < 2)] at this
    linarith
  have h2 : 2 * |g| ≤ B := by
    refine abs_le_of_sq_le_sq' ?_ (by linarith) |>.2
    rw [mul_pow, sq_abs]; nlinarith
  have h3 : x ^ 2 = t ^ 2 := by rw [← hx, sq_abs]
  have h4 : y ^ 2 = t ^ 2 := by rw [← hy, sq_abs]
  rw [h3, h4]
  nlinarith [mul_le_mul_of_nonneg_right h2 (sq_nonneg t)]

theorem shellMonotone_of_wideAngle (v : Fin 2 → Pt m) (hv : WideAngle v) : ShellMonotone v := by
  refine shellMonotone_of_step v fun c t ht hc => ?_
  have hA := gram_self_nonneg v 0
  have hB := gram_self_nonneg v 1
  have ht' : (2 : ℝ) ≤ t := by exact_mod_cast ht
  have b0 := abs_le.1 (hc.1 0)
  have b1 := abs_le.1 (hc.1 1)
  unfold WideAngle at hv
  set A := gram v 0 0
  set B := gram v 1 1
  set g := gram v 0 1
  have c0 : |(c 0 : ℝ)| ≤ t := by exact_mod_cast hc.1 0
  have c1 : |(c 1 : ℝ)| ≤ t := by exact_mod_cast hc.1 1
  -- the two candidates on the axes
  have axis0 : A * ((t : ℝ) - 1) ^ 2 ≤ A * c 0 ^ 2 + 2 * g * (c 0 * c 1) + B * c 1 ^ 2 →
      ∃ d, OnShell d (t - 1) ∧ nnorm (comb v d) ≤ nnorm (comb v c) := by
    intro h
    refine ⟨![t - 1, 0], ⟨fun i => ?_, 0, ?_⟩, nnorm_le_of_sq ?_⟩
    · fin_cases i
      · show |t - 1| ≤ t - 1; rw [abs_of_nonneg (by omega)]
      · simp; omega
    · simp; omega
    · rw [comb_two, comb_two]; simpa using h
  have axis1 : B * ((t : ℝ) - 1) ^ 2 ≤ A * c 0 ^ 2 + 2 * g * (c 0 * c 1) + B * c 1 ^ 2 →
      ∃ d, OnShell d (t - 1) ∧ nnorm (comb v d) ≤ nnorm (comb v c) := by
    intro h
    refine ⟨![0, t - 1], ⟨fun i => ?_, 1, ?_⟩, nnorm_le_of_sq ?_⟩
    · fin_cases i
      · simp; omega
      · show |t - 1| ≤ t - 1; rw [abs_of_nonneg (by omega)]
    · simp; omega
    · rw [comb_two, comb_two]; simpa using h
  by_cases h0 : |c 0| = t
  · have h0' : |(c 0 : ℝ)| = t := by exact_mod_cast h0
    by_cases h1 : |c 1| = t
    · have h1' : |(c 1 : ℝ)| = t := by exact_mod_cast h1
      rcases le_total A B with hAB | hAB
      · exact axis0 (wide_corner hA hAB hv ht' h0' h1')
      · refine axis1 ?_
        have := wide_corner (g := g) hB hAB (by linarith) ht' h1' h0'
        linarith
    · by_cases h : A * (2 * t - 1) < 2 * |g| * |(c 1 : ℝ)|
      · exact axis0 (wide_aux hA hv ht' h0' h)
      · push Not at h
        have hg : |2 * g * (c 1 : ℝ)| ≤ A * (2 * t - 1) := by
          rw [abs_mul, abs_mul, abs_of_pos (by norm_num : (0 : ℝ) < 2)]; exact h
        have hg := abs_le.1 hg
        have h1l : |c 1| ≤ t - 1 := by have := hc.1 1; omega
        rcases (abs_eq (by omega)).1 h0 with e | e
        · refine ⟨![t - 1, c 1], ⟨fun i => ?_, 0, ?_⟩, nnorm_le_of_sq ?_⟩
          · fin_cases i
            · show |t - 1| ≤ t - 1; rw [abs_of_nonneg (by omega)]
            · simpa using h1l
          · simp; omega
          · rw [comb_two, comb_two]; simp [e]; nlinarith [hg.1]
        · refine ⟨![-(t - 1), c 1], ⟨fun i => ?_, 0, ?_⟩, nnorm_le_of_sq ?_⟩
          · fin_cases i
            · show |-(t - 1)| ≤ t - 1; rw [abs_neg, abs_of_nonneg (by omega)]
            · simpa using h1l
          · show |-(t - 1)| = t - 1
            rw [abs_neg, abs_of_nonneg (by omega)]
          · rw [comb_two, comb_two]; simp [e]; nlinarith [hg.2]
  · have h1 : |c 1| = t := by
      obtain ⟨i, hi⟩ := hc.2
      fin_cases i
      · exact absurd hi h0
      · exact hi
    have h1' : |(c 1 : ℝ)| = t := by exact_mod_cast h1
    by_cases h : B * (2 * t - 1) < 2 * |g| * |(c 0 : ℝ)|
    · refine axis1 ?_
      have := wide_aux (B := A) (g := g) hB (by linarith) ht' h1' h
      linarith
    · push Not at h
      have hg : |2 * g * (c 0 : ℝ)| ≤ B * (2 * t - 1) := by
        rw [abs_mul, abs_mul, abs_of_pos (by norm_num : (0 : ℝ) < 2)]; exact h
      have hg := abs_le.1 hg
      have h0l : |c 0| ≤ t - 1 := by have := hc.1 0; omega
      rcases (abs_eq (by omega)).1 h1 with e | e
      · refine ⟨![c 0, t - 1], ⟨fun i => ?_, 1, ?_⟩, nnorm_le_of_sq ?_⟩
        · fin_cases i
          · simpa using h0l
          · show |t - 1| ≤ t - 1; rw [abs_of_nonneg (by omega)]
        · simp; omega
        · rw [comb_two, comb_two]; simp [e]; nlinarith [hg.1]
      · refine ⟨![c 0, -(t - 1)], ⟨fun i => ?_, 1, ?_⟩, nnorm_le_of_sq ?_⟩
        · fin_cases i
          · simpa using h0l
          · show |-(t - 1)| ≤ t - 1; rw [abs_neg, abs_of_nonneg (by omega)]
        · show |-(t - 1)| = t - 1
          rw [abs_neg, abs_of_nonneg (by omega)]
        · rw [comb_two, comb_two]; simp [e]; nlinarith [hg.2]

end Verif.Latt
