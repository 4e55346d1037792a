import Verif.Proofs.SingletGround
/-!
# Lemmas for C131: correlations in a state without total spin
-/

namespace Verif.LDB

open Verif.Spec Matrix

variable {n : ℕ} {u : Fin (2 ^ n) → ℂ}

theorem expectation_sub' {N : ℕ} (M M' : Matrix (Fin N) (Fin N) ℂ) (v : Fin N → ℂ) :
    expectation (M - M') v = expectation M v - expectation M' v := by
  unfold expectation
  rw [Matrix.sub_mulVec, dotProduct_sub, sub_div]

theorem total_hermitian {a : SpinOtype} (ha : a ∈ [SpinOtype.x, .y, .z]) : (totalSpinOp n a)ᴴ = totalSpinOp n a := by
  rw [total_adj, ← Verif.spinHalf_adj a]
  fin_cases ha <;> rfl

theorem commutator_mean {N : ℕ} {X B : Matrix (Fin N) (Fin N) ℂ} {v : Fin N → ℂ} (hX : Xᴴ = X) (hv : X *ᵥ v = 0) :
    expectation (X * B - B * X) v = 0 := by
  unfold expectation
  rw [Matrix.sub_mulVec, ← Matrix.mulVec_mulVec, ← Matrix.mulVec_mulVec, hv, Matrix.mulVec_zero, sub_zero]
  have := star_mulVec_dot X v (B *ᵥ v)
  rw [hX, hv, star_zero, zero_dotProduct] at this
  rw [← this, zero_div]

/-- The commutator of the total spin with the spin at one point. -/
theorem total_site {i : ℕ} (hi : i < n) (a : SpinOtype) (B : Matrix (Fin 2) (Fin 2) ℂ) :
    totalSpinOp n a * siteOp n i B - siteOp n i B * totalSpinOp n a =
      siteOp n i (spinHalf a * B - B * spinHalf a) := by
  unfold totalSpinOp
  rw [Finset.sum_mul, Finset.mul_sum, ← Finset.sum_sub_distrib, Finset.sum_eq_single i]
  · rw [siteOp_mul _ _ hi, siteOp_mul _ _ hi, siteOp_sub]
  · intro j hj hji
    rw [Finset.mem_range] at hj
    rw [(siteOp_comm n j i hj hi hji _ _).eq, sub_self]
  · intro h
    exact absurd (Finset.mem_range.2 hi) h

theorem total_pair {i j : ℕ} (hi : i < n) (hj : j < n) (a : SpinOtype) (B C : Matrix (Fin 2) (Fin 2) ℂ) :
    totalSpinOp n a * (siteOp n i B * siteOp n j C) - siteOp n i B * siteOp n j C * totalSpinOp n a =
      siteOp n i (spinHalf a * B - B * spinHalf a) * siteOp n j C +
        siteOp n i B * siteOp n j (spinHalf a * C - C * spinHalf a) := by
  rw [← total_site hi, ← total_site hj]
  simp only [sub_mul, mul_sub, mul_assoc]
  abel

theorem half_commutators : spinHalf .y * spinHalf .x - spinHalf .x * spinHalf .y = (-Complex.I) • spinHalf .z ∧
    spinHalf .y * spinHalf .z - spinHalf .z * spinHalf .y = Complex.I • spinHalf .x ∧
    spinHalf .x * spinHalf .y - spinHalf .y * spinHalf .x = Complex.I • spinHalf .z ∧
    spinHalf .x * spinHalf .z - spinHalf .z * spinHalf .x = (-Complex.I) • spinHalf .y := by
  refine ⟨?_, ?_, ?_, ?_⟩ <;>
  · ext r c
    fin_cases r <;> fin_cases c <;> simp [spinHalf] <;> first | (ring_nf; done) | (ring_nf; rw [Complex.I_sq]; ring)

/-- In a state without total spin no spin points anywhere. -/
theorem no_moment (h : ∀ a ∈ [SpinOtype.x, .y, .z], totalSpinOp n a *ᵥ u = 0) {i : ℕ} (hi : i < n) {a : SpinOtype}
    (ha : a ∈ [SpinOtype.x, .y, .z]) : expectation (siteOp n i (spinHalf a)) u = 0 := by
  have hI : Complex.I ≠ 0 := Complex.I_ne_zero
  obtain ⟨-, c2, c3, c4⟩ := half_commutators
  have key : ∀ (b : SpinOtype) (B : Matrix (Fin 2) (Fin 2) ℂ) (z : ℂ) (C : Matrix (Fin 2) (Fin 2) ℂ), b ∈ [SpinOtype.x, .y, .z] →
      z ≠ 0 → spinHalf b * B - B * spinHalf b = z • C → expectation (siteOp n i C) u = 0 := by
    intro b B z C hb hz hc
    have := commutator_mean (B := siteOp n i B) (total_hermitian hb) (h b hb)
    rw [total_site hi, hc, siteOp_smul, expectation_smul] at this
    exact (mul_eq_zero.1 this).resolve_left hz
  fin_cases ha
  · exact key .y _ _ _ (by simp) hI c2
  · exact key .x _ _ _ (by simp) (neg_ne_zero.2 hI) c4
  · exact key .x _ _ _ (by simp) hI c3

/-- The correlations of two spins are equal in all directions. -/
theorem isotropic (h : ∀ a ∈ [SpinOtype.x, .y, .z], totalSpinOp n a *ᵥ u = 0) {i j : ℕ} (hi : i < n) (hj : j < n) {a : SpinOtype}
    (ha : a ∈ [SpinOtype.x, .y, .z]) :
    expectation (siteOp n i (spinHalf a) * siteOp n j (spinHalf a)) u = expectation (spinDot n i j) u / 3 := by
  have hI : Complex.I ≠ 0 := Complex.I_ne_zero
  obtain ⟨c1, c2, c3, c4⟩ := half_commutators
  have key : ∀ (b : SpinOtype) (B C X Y : Matrix (Fin 2) (Fin 2) ℂ) (z : ℂ), b ∈ [SpinOtype.x, .y, .z] → z ≠ 0 →
      spinHalf b * B - B * spinHalf b = z • X → spinHalf b * C - C * spinHalf b = (-z) • Y →
      expectation (siteOp n i X * siteOp n j C) u = expectation (siteOp n i B * siteOp n j Y) u := by
    intro b B C X Y z hb hz h1 h2
    have := commutator_mean (B := siteOp n i B * siteOp n j C) (total_hermitian hb) (h b hb)
    rw [total_pair hi hj, h1, h2, siteOp_smul, siteOp_smul, smul_mul_assoc, mul_smul_comm, expectation_add, expectation_smul,
      expectation_smul] at this
    have h3 : z * (expectation (siteOp n i X * siteOp n j C) u - expectation (siteOp n i B * siteOp n j Y) u) = 0 := by
      linear_combination this
    exact sub_eq_zero.1 ((mul_eq_zero.1 h3).resolve_left hz)
  have e1 := key .y (spinHalf .x) (spinHalf .z) (spinHalf .z) (spinHalf .x) (-Complex.I) (by simp) (neg_ne_zero.2 hI) c1
    (by rw [neg_neg]; exact c2)
  have e2 := key .x (spinHalf .y) (spinHalf .z) (spinHalf .z) (spinHalf .y) Complex.I (by simp) hI c3 c4
  unfold spinDot
  rw [expectation_add, expectation_add]
  fin_cases ha
  · linear_combination (1 / 3 : ℂ) * e1 - (1 / 3 : ℂ) * e1 - (1 / 3 : ℂ) * e1 + (1 / 3 : ℂ) * e2 - (1 / 3 : ℂ) * e1
  · linear_combination (1 / 3 : ℂ) * e1 - (2 / 3 : ℂ) * e2
  · linear_combination (1 / 3 : ℂ) * e1 + (1 / 3 : ℂ) * e2

/-- The exchange of two different spins. -/
theorem flip_entry {i j : Fin n} (hij : i ≠ j) (a c : Fin (2 ^ n)) :
    (spinDot n i j - siteOp n i (spinHalf .z) * siteOp n j (spinHalf .z)) a c =
      if digit c i ≠ digit c j ∧ swapped i j c = a then 1 / 2 else 0 := by
  classical
  have hij' : (i : ℕ) ≠ j := fun h => hij (Fin.ext h)
  rw [Matrix.sub_apply, spinDot_entry hij, siteOp_mul_ne n i j j.2 hij']
  by_cases hd : digit c i = digit c j
  · have hr : (if digit c i ≠ digit c j ∧ swapped i j c = a then (1 / 2 : ℂ) else 0) = 0 := if_neg fun h => h.1 hd
    rw [hr, swapped_of_eq hd]
    by_cases hac : a = c
    · subst hac
      have hz : (if ∀ k < n, k ≠ ↑i → k ≠ ↑j → digit a k = digit a k then
          spinHalf .z (digit a i) (digit a i) * spinHalf .z (digit a j) (digit a j) else 0) =
          spinHalf .z (digit a i) (digit a i) * spinHalf .z (digit a j) (digit a j) := if_pos fun _ _ _ _ => rfl
      rw [hz, hd, if_pos rfl, if_pos rfl]
      generalize digit a j = q
      fin_cases q <;> simp [spinHalf] <;> norm_num
    · have hca : ¬ c = a := fun e => hac e.symm
      rw [if_neg hca, if_neg hac]
      have : (if ∀ k < n, k ≠ ↑i → k ≠ ↑j → digit a k = digit c k then
          spinHalf .z (digit a i) (digit c i) * spinHalf .z (digit a j) (digit c j) else 0) = 0 := by
        split
        · rename_i hk
          have hne : digit a i ≠ digit c i ∨ digit a j ≠ digit c j := by
            by_contra hcon
            push Not at hcon
            refine hac (config_ext fun k => ?_)
            by_cases h1 : k = i
            · rw [h1, hcon.1]
            · by_cases h2 : k = j
              · rw [h2, hcon.2]
              · exact hk k k.2 (fun e => h1 (Fin.ext e)) fun e => h2 (Fin.ext e)
          have hz : ∀ p q : Fin 2, p ≠ q → spinHalf .z p q = 0 := by
            intro p q hpq
            fin_cases p <;> fin_cases q <;> first | exact absurd rfl hpq | simp [spinHalf]
          rcases hne with h1 | h1
          · rw [hz _ _ h1, zero_mul]
          · rw [hz _ _ h1, mul_zero]
        · rfl
      rw [this]
      simp
  · by_cases hac : a = c
    · subst hac
      have hsw : swapped i j a ≠ a := fun e => hd (by
        have := congrArg (fun b : Fin (2 ^ n) => digit b i) e
        change digit (swapped i j a) i = digit a i at this
        rw [digit_swapped, Equiv.swap_apply_left] at this
        exact this.symm)
      rw [if_neg hsw, if_pos rfl, if_pos fun _ _ _ _ => rfl, if_neg fun e => hsw e.2]
      revert hd
      generalize digit a i = p
      generalize digit a j = q
      intro hd
      fin_cases p <;> fin_cases q <;> first | exact absurd rfl hd | (simp [spinHalf]; norm_num)
    · have : (if ∀ k < n, k ≠ ↑i → k ≠ ↑j → digit a k = digit c k then
          spinHalf .z (digit a i) (digit c i) * spinHalf .z (digit a j) (digit c j) else 0) = 0 := by
        split
        · rename_i hk
          have hne : digit a i ≠ digit c i ∨ digit a j ≠ digit c j := by
            by_contra hcon
            push Not at hcon
            refine hac (config_ext fun k => ?_)
            by_cases h1 : k = i
            · rw [h1, hcon.1]
            · by_cases h2 : k = j
              · rw [h2, hcon.2]
              · exact hk k k.2 (fun e => h1 (Fin.ext e)) fun e => h2 (Fin.ext e)
          have hz : ∀ p q : Fin 2, p ≠ q → spinHalf .z p q = 0 := by
            intro p q hpq
            fin_cases p <;> fin_cases q <;> first | exact absurd rfl hpq | simp [spinHalf]
          rcases hne with h1 | h1
          · rw [hz _ _ h1, zero_mul]
          · rw [hz _ _ h1, mul_zero]
        · rfl
      rw [this, if_neg hac, sub_zero, sub_zero]
      simp [hd]

variable {A : Fin n → Prop} [DecidablePred A] {p : Fin n → Fin n} {l : List (Fin n × Fin n)} {J : ℝ}

/-- Two spins are parallel on average on the same sublattice, and antiparallel otherwise. -/
theorem staggered (h : Halves A l p) {x : Fin (2 ^ n) → ℝ} (h0 : ∀ a, 0 ≤ x a) (hx : ∀ a, 0 < x a ↔ 2 * downs a = n)
    (hu : ∀ a ∈ [SpinOtype.x, .y, .z], totalSpinOp n a *ᵥ (fun a => ((sgn A a * x a : ℝ) : ℂ)) = 0) {i j : Fin n} (hij : i ≠ j) :
    (expectation (spinDot n i j) (fun a => ((sgn A a * x a : ℝ) : ℂ))).im = 0 ∧
    ((A i ↔ A j) → 0 < (expectation (spinDot n i j) (fun a => ((sgn A a * x a : ℝ) : ℂ))).re) ∧
    (¬ (A i ↔ A j) → (expectation (spinDot n i j) (fun a => ((sgn A a * x a : ℝ) : ℂ))).re < 0) := by
  set u : Fin (2 ^ n) → ℂ := fun a => ((sgn A a * x a : ℝ) : ℂ) with hudef
  set ε : ℝ := if (A i ↔ A j) then 1 else -1 with hε
  set W : ℝ := ∑ c : Fin (2 ^ n), if digit c i ≠ digit c j then x (swapped i j c) * x c else 0 with hW
  have hN := h.card
  obtain ⟨a0, ha0⟩ := exists_config A
  have hd0 : 2 * downs a0 = n := by
    have hd1 : downs a0 = (Finset.univ.filter A).card := by
      unfold downs
      congr 1
      ext i
      simp only [Finset.mem_filter, Finset.mem_univ, true_and, ha0]
    omega
  obtain ⟨c, hc, hcd⟩ : ∃ c : Fin (2 ^ n), 2 * downs c = n ∧ digit c i ≠ digit c j := by
    by_cases hA : A i ↔ A j
    · refine ⟨swapped i (p i) a0, by unfold swapped; rw [downs_spinPerm]; exact hd0, ?_⟩
      have hjp : j ≠ p i := fun e => by
        have := h.other i
        rw [← e] at this
        tauto
      rw [digit_swapped, digit_swapped, Equiv.swap_apply_left, Equiv.swap_apply_of_ne_of_ne hij.symm hjp]
      intro e
      have h1 := ha0 (p i)
      have h2 := ha0 j
      rw [e, h2, h.other] at h1
      tauto
    · refine ⟨a0, hd0, fun e => ?_⟩
      have h1 := ha0 i
      have h2 := ha0 j
      rw [e, h2] at h1
      exact hA h1.symm
  have hWpos : 0 < W := by
    have h1 : ∀ c, 0 ≤ if digit (c : Fin (2 ^ n)) i ≠ digit c j then x (swapped i j c) * x c else 0 := fun c => by
      split
      · exact mul_nonneg (h0 _) (h0 _)
      · exact le_rfl
    refine lt_of_lt_of_le ?_ (Finset.single_le_sum (fun c _ => h1 c) (Finset.mem_univ c))
    rw [if_pos hcd]
    refine mul_pos ((hx _).2 ?_) ((hx _).2 hc)
    unfold swapped
    rw [downs_spinPerm, hc]
  have hnorm : u ≠ 0 := by
    intro e
    have h1 := congrFun e c
    have h2 : sgn A c * x c = 0 := by
      have h3 : ((sgn A c * x c : ℝ) : ℂ) = 0 := h1
      exact_mod_cast h3
    have h3 := (hx c).2 hc
    have h4 := sgn_sq (A := A) c
    rcases mul_eq_zero.1 h2 with h5 | h5
    · rw [h5] at h4; norm_num at h4
    · exact h3.ne' h5
  have hform : star u ⬝ᵥ (spinDot n i j - siteOp n i (spinHalf .z) * siteOp n j (spinHalf .z)) *ᵥ u = ((ε / 2 * W : ℝ) : ℂ) := by
    have e1 : star u ⬝ᵥ (spinDot n i j - siteOp n i (spinHalf .z) * siteOp n j (spinHalf .z)) *ᵥ u =
        ∑ c : Fin (2 ^ n), ∑ a : Fin (2 ^ n), star (u a) * ((if digit c i ≠ digit c j ∧ swapped i j c = a then 1 / 2 else 0) * u c) := by
      rw [Finset.sum_comm]
      refine Finset.sum_congr rfl fun a _ => ?_
      rw [Pi.star_apply, ← Finset.mul_sum]
      congr 1
      unfold Matrix.mulVec dotProduct
      refine Finset.sum_congr rfl fun c _ => ?_
      exact congrArg (· * u c) (flip_entry hij a c)
    rw [e1, hW, Finset.mul_sum, Complex.ofReal_sum]
    refine Finset.sum_congr rfl fun c _ => ?_
    by_cases hd : digit c i ≠ digit c j
    · rw [if_pos hd, Finset.sum_eq_single (swapped i j c)]
      · rw [if_pos ⟨hd, rfl⟩, hudef]
        dsimp only
        rw [sgn_swapped hd, Complex.star_def, Complex.conj_ofReal]
        have hs := sgn_sq (A := A) c
        have hs' : (sgn A c : ℂ) * sgn A c = 1 := by exact_mod_cast hs
        rw [hε]
        by_cases hA : A i ↔ A j
        · rw [if_pos hA, if_pos hA]
          push_cast
          linear_combination ((x (swapped i j c) : ℂ) * x c / 2) * hs'
        · rw [if_neg hA, if_neg hA]
          push_cast
          linear_combination (-((x (swapped i j c) : ℂ) * x c / 2)) * hs'
      · intro a _ ha
        rw [if_neg (fun e => ha e.2.symm), zero_mul, mul_zero]
      · intro h; exact absurd (Finset.mem_univ _) h
    · rw [if_neg hd, mul_zero, Complex.ofReal_zero]
      refine Finset.sum_eq_zero fun a _ => ?_
      rw [if_neg (fun e => hd e.1), zero_mul, mul_zero]
  have hiso := isotropic hu i.2 j.2 (a := .z) (by simp)
  have hmean : expectation (spinDot n i j - siteOp n i (spinHalf .z) * siteOp n j (spinHalf .z)) u =
      ((ε / 2 * W / norm2 u : ℝ) : ℂ) := by
    unfold expectation
    rw [hform, star_dot]
    push_cast
    rfl
  rw [expectation_sub', hiso] at hmean
  have hval : expectation (spinDot n i j) u = ((ε * (3 / 4 * W / norm2 u) : ℝ) : ℂ) := by
    have : expectation (spinDot n i j) u = 3 / 2 * ((ε / 2 * W / norm2 u : ℝ) : ℂ) := by
      rw [← hmean]; ring
    rw [this]
    push_cast
    ring
  have hpos : 0 < 3 / 4 * W / norm2 u := by
    have := norm2_pos hnorm
    positivity
  rw [hval, Complex.ofReal_im, Complex.ofReal_re]
  refine ⟨rfl, fun hA => ?_, fun hA => ?_⟩
  · rw [hε, if_pos hA, one_mul]
    exact hpos
  · rw [hε, if_neg hA]
    linarith

end Verif.LDB
