import Verif.Spec.Antiferromagnet
import Verif.Proofs.LatticeSpin
import Verif.Proofs.HubbardLowest
import Verif.Proofs.HubbardRuns
import Verif.Proofs.SpinBounds
/-!
# Lemmas for C120: a spin and its neighbours, and the bounds that follow
-/

namespace Verif

open Spec

section star

variable {n : ℕ}

/-- Two bonds with a common end. -/
theorem dotOp_anti {i j k : ℕ} (hi : i < n) (hj : j < n) (hk : k < n) (hij : i ≠ j) (hik : i ≠ k) (hjk : j ≠ k) :
    dotOp n i j * dotOp n i k + dotOp n i k * dotOp n i j = (1 / 2 : ℂ) • dotOp n j k := by
  have hc : ∀ A B C D : Matrix (Fin 2) (Fin 2) ℂ,
      siteOp n i A * siteOp n j B * (siteOp n i C * siteOp n k D) =
        siteOp n i (A * C) * (siteOp n j B * siteOp n k D) := by
    intro A B C D
    rw [← siteOp_mul _ _ hi, mul_assoc, ← mul_assoc (siteOp n j B), (siteOp_comm n j i hj hi hij.symm B C).eq]
    simp only [mul_assoc]
  have hc' : ∀ A B C D : Matrix (Fin 2) (Fin 2) ℂ,
      siteOp n i A * siteOp n k B * (siteOp n i C * siteOp n j D) =
        siteOp n i (A * C) * (siteOp n j D * siteOp n k B) := by
    intro A B C D
    rw [← siteOp_mul _ _ hi, mul_assoc, ← mul_assoc (siteOp n k B), (siteOp_comm n k i hk hi hik.symm B C).eq,
      mul_assoc, (siteOp_comm n k j hk hj hjk.symm B D).eq]
    simp only [mul_assoc]
  obtain ⟨h1, h2, h3, h4, h5, h6⟩ := half_prod
  unfold dotOp
  simp only [add_mul, mul_add, hc, hc', h1, h2, h3, h4, h5, h6, half_sq .x (by simp), half_sq .y (by simp),
    half_sq .z (by simp), siteOp_smul, siteOp_one _ _ hi, smul_mul_assoc, one_mul]
  module

theorem dotOp_anti' {i j k : ℕ} (hi : i < n) (hj : j < n) (hk : k < n) (hij : i ≠ j) (hik : i ≠ k) :
    dotOp n i j * dotOp n i k + dotOp n i k * dotOp n i j =
      (1 / 2 : ℂ) • dotOp n j k + if j = k then (-1 : ℂ) • dotOp n i j else 0 := by
  by_cases hjk : j = k
  · subst hjk
    rw [if_pos rfl, dotOp_sq n i j hi hj hij, dotOp_self n j hj]
    module
  · rw [if_neg hjk, add_zero, dotOp_anti hi hj hk hij hik hjk]

theorem sum_sq_twice {R ι : Type*} [Ring R] (T : Finset ι) (f : ι → R) :
    (∑ j ∈ T, f j) * (∑ j ∈ T, f j) + (∑ j ∈ T, f j) * (∑ j ∈ T, f j) =
      ∑ j ∈ T, ∑ k ∈ T, (f j * f k + f k * f j) := by
  have e : ∑ j ∈ T, ∑ k ∈ T, (f j * f k + f k * f j) = ∑ j ∈ T, ∑ k ∈ T, f j * f k + ∑ j ∈ T, ∑ k ∈ T, f k * f j := by
    rw [← Finset.sum_add_distrib]
    exact Finset.sum_congr rfl fun j _ => Finset.sum_add_distrib
  rw [e, Finset.sum_comm (f := fun j k => f k * f j), ← Finset.sum_mul_sum]

/-- The mean of an observable, and of its square. -/
theorem expectation_variance {d : ℕ} {X : Matrix (Fin d) (Fin d) ℂ} (hX : X.conjTranspose = X) {v : Fin d → ℂ}
    (hv : v ≠ 0) : (expectation X v).re ^ 2 ≤ (expectation (X * X) v).re := by
  set x := (expectation X v).re with hx
  have h := expectation_adj_nonneg (X + ((-x : ℝ) : ℂ) • 1) v
  have e : (X + ((-x : ℝ) : ℂ) • 1).conjTranspose * (X + ((-x : ℝ) : ℂ) • 1) =
      X * X + ((-2 * x : ℝ) : ℂ) • X + ((x ^ 2 : ℝ) : ℂ) • 1 := by
    rw [Matrix.conjTranspose_add, Matrix.conjTranspose_smul, Matrix.conjTranspose_one, hX, Complex.star_def,
      Complex.conj_ofReal]
    simp only [add_mul, mul_add, smul_mul_assoc, mul_smul_comm, mul_one, one_mul]
    push_cast
    module
  rw [e, expectation_add, expectation_add, expectation_smul, expectation_smul, expectation_one v hv, mul_one,
    Complex.add_re, Complex.add_re, Complex.re_ofReal_mul, Complex.ofReal_re, ← hx] at h
  nlinarith

/-- A spin and `t` others: `S_i . (S_1 + ... + S_t)` is between `-(t + 2) / 4` and `t / 4`. -/
theorem star_bound {i : ℕ} (hi : i < n) (T : Finset ℕ) (hT : ∀ j ∈ T, j < n ∧ i ≠ j) {v : Fin (2 ^ n) → ℂ}
    (hv : v ≠ 0) : -((T.card : ℝ) + 2) / 4 ≤ ∑ j ∈ T, (expectation (dotOp n i j) v).re := by
  set X := ∑ j ∈ T, dotOp n i j with hX
  have hXadj : X.conjTranspose = X := by
    rw [hX, Matrix.conjTranspose_sum]
    exact Finset.sum_congr rfl fun j hj => dotOp_adj n i j hi (hT j hj).1 (hT j hj).2
  have hx : (expectation X v).re = ∑ j ∈ T, (expectation (dotOp n i j) v).re := by
    rw [hX, expectation_sum, Complex.re_sum]
  rw [← hx]
  have hsq : X * X + X * X = (∑ j ∈ T, ∑ k ∈ T, (1 / 2 : ℂ) • dotOp n j k) + (-1 : ℂ) • X := by
    have e1 := sum_sq_twice T (dotOp n i)
    rw [hX, e1]
    have e2 : ∀ j ∈ T, ∑ k ∈ T, (dotOp n i j * dotOp n i k + dotOp n i k * dotOp n i j) =
        ∑ k ∈ T, (1 / 2 : ℂ) • dotOp n j k + (-1 : ℂ) • dotOp n i j := by
      intro j hj
      rw [Finset.sum_congr rfl fun k hk => dotOp_anti' hi (hT j hj).1 (hT k hk).1 (hT j hj).2 (hT k hk).2,
        Finset.sum_add_distrib, Finset.sum_ite_eq, if_pos hj]
    rw [Finset.sum_congr rfl e2, Finset.sum_add_distrib, ← Finset.smul_sum]
  have hle : (expectation (∑ j ∈ T, ∑ k ∈ T, (1 / 2 : ℂ) • dotOp n j k) v).re ≤ (T.card : ℝ) * (T.card + 2) / 8 := by
    rw [expectation_sum, Complex.re_sum]
    calc _ ≤ ∑ j ∈ T, ((T.card : ℝ) + 2) / 8 := by
          refine Finset.sum_le_sum fun j hj => ?_
          rw [expectation_sum, Complex.re_sum]
          calc _ ≤ ∑ k ∈ T, ((1 / 8 : ℝ) + if j = k then 1 / 4 else 0) := by
                refine Finset.sum_le_sum fun k hk => ?_
                have hhalf : ((1 / 2 : ℂ)) = ((1 / 2 : ℝ) : ℂ) := by push_cast; rfl
                rw [hhalf, expectation_smul, Complex.re_ofReal_mul]
                by_cases h : j = k
                · subst h
                  rw [if_pos rfl, dotOp_self _ _ (hT j hj).1, expectation_smul, expectation_one v hv]
                  norm_num
                · rw [if_neg h]
                  have := dotOp_le n j k (hT j hj).1 (hT k hk).1 h v hv
                  linarith
            _ = _ := by
                rw [Finset.sum_add_distrib, Finset.sum_ite_eq, if_pos hj, Finset.sum_const, nsmul_eq_mul]
                ring
      _ = _ := by rw [Finset.sum_const, nsmul_eq_mul]; ring
  have hvar := expectation_variance hXadj hv
  have h2 := congrArg (fun M => (expectation M v).re) hsq
  simp only [expectation_add, Complex.add_re] at h2
  have e3 : (expectation ((-1 : ℂ) • X) v).re = -(expectation X v).re := by
    rw [expectation_smul]; simp
  rw [e3] at h2
  by_contra hlt
  push Not at hlt
  have hc : (0 : ℝ) ≤ T.card := by positivity
  nlinarith

theorem dotOp_ge {i j : ℕ} (hi : i < n) (hj : j < n) (hij : i ≠ j) {v : Fin (2 ^ n) → ℂ} (hv : v ≠ 0) :
    -(3 / 4) ≤ (expectation (dotOp n i j) v).re := by
  have := star_bound hi {j} (by simpa using ⟨hj, hij⟩) hv
  rw [Finset.sum_singleton, Finset.card_singleton] at this
  norm_num at this
  linarith

/-- The mean in a state of definite spins. -/
theorem dotOp_diag {i j : ℕ} (hj : j < n) (hij : i ≠ j) (a : Fin (2 ^ n)) :
    dotOp n i j a a = if digit a i = digit a j then 1 / 4 else -(1 / 4) := by
  unfold dotOp
  classical
  rw [Matrix.add_apply, Matrix.add_apply, siteOp_mul_ne n i j hj hij, siteOp_mul_ne n i j hj hij,
    siteOp_mul_ne n i j hj hij, if_pos fun _ _ _ _ => rfl, if_pos fun _ _ _ _ => rfl, if_pos fun _ _ _ _ => rfl]
  generalize digit a i = p
  generalize digit a j = q
  fin_cases p <;> fin_cases q <;> simp [spinHalf] <;> norm_num

theorem exists_digits (c : ℕ → Bool) : ∀ n : ℕ, ∃ a < 2 ^ n, ∀ i < n, a.testBit i = c i
  | 0 => ⟨0, by norm_num, by simp⟩
  | n + 1 => by
    obtain ⟨a, h1, h2⟩ := exists_digits c n
    refine ⟨a + (if c n then 2 ^ n else 0), ?_, fun i hi => ?_⟩
    · rw [pow_succ]; split <;> omega
    · by_cases hc : c n = true
      · rw [if_pos hc, add_comm]
        rcases Nat.lt_succ_iff_lt_or_eq.1 hi with h | h
        · rw [Nat.testBit_two_pow_add_gt h, h2 i h]
        · subst h
          rw [Nat.testBit_two_pow_add_eq, Nat.testBit_lt_two_pow h1, hc]; rfl
      · rw [if_neg hc, add_zero]
        rcases Nat.lt_succ_iff_lt_or_eq.1 hi with h | h
        · exact h2 i h
        · subst h
          rw [Nat.testBit_lt_two_pow h1]
          simpa using hc

end star

end Verif

namespace Verif.LDB

open Verif.Latt Verif.Spec Demo Matrix

section model

open Classical

variable {n m : ℕ} {S : Set (Pt m)} {d : ℝ} {points : Fin n → Pt m} {v : Fin m → Pt m} {z : ℕ}
  {bs : List (Pt m × Pt m)} {ix : Pt m → Fin n}

theorem expectation_list {N : ℕ} {α : Type*} (l : List α) (F : α → Matrix (Fin N) (Fin N) ℂ) (ψ : Fin N → ℂ) :
    expectation (l.map F).sum ψ = (l.map fun x => expectation (F x) ψ).sum := by
  induction l with
  | nil => simp [expectation]
  | cons a l ih => rw [List.map_cons, List.sum_cons, expectation_add, ih, List.map_cons, List.sum_cons]

/-- The energy as a sum over the points and their neighbours. -/
theorem RunData.mean (h : RunData S d points v z bs ix) (J : ℝ) (ha : ∀ b ∈ bs, ix b.1 ≠ ix b.2)
    (ψ : Fin (2 ^ n) → ℂ) : (expectation (bondSum n J ix bs) ψ).re =
      J / 2 * ∑ k, ∑ x ∈ (h.finite k).toFinset, (expectation (dotOp n k (ix x)) ψ).re := by
  rw [bondSum_apart J ha, expectation_list]
  have e : (bs.map fun b => expectation ((J : ℂ) • Spec.spinDot n (ix b.1) (ix b.2)) ψ).sum =
      (bs.map fun b => (fun i j : Fin n => (J : ℂ) * expectation (Spec.spinDot n i j) ψ) (ix b.1) (ix b.2)).sum := by
    congr 1
    exact List.map_congr_left fun b _ => expectation_smul _ _ _
  rw [e, h.pairs_symm (fun i j : Fin n => (J : ℂ) * expectation (Spec.spinDot n i j) ψ)
    fun i j => by rw [spinDot_comm i.2 j.2]]
  simp only [h.finsum_eq, ← Finset.mul_sum]
  have e2 : (1 / 2 * ((J : ℂ) * ∑ k : Fin n, ∑ x ∈ (h.finite k).toFinset, expectation (Spec.spinDot n k (ix x)) ψ)) =
      ((J / 2 : ℝ) : ℂ) * ∑ k : Fin n, ∑ x ∈ (h.finite k).toFinset, expectation (Spec.spinDot n k (ix x)) ψ := by
    push_cast; ring
  rw [e2, Complex.re_ofReal_mul, Complex.re_sum]
  simp only [Complex.re_sum]
  rfl

theorem RunData.ne (h : RunData S d points v z bs ix) (hv : ∀ p c, ndist p (p + comb v c) ≠ d) {k : Fin n} {x : Pt m}
    (hx : x ∈ (h.finite k).toFinset) : (k : ℕ) ≠ ix x := by
  intro e
  obtain ⟨h1, h2⟩ := (h.mem k).1 hx
  obtain ⟨c, hc⟩ := h.back h1
  rw [← Fin.ext e] at hc
  rw [hc] at h2
  exact hv _ _ h2

/-- Every spin has different neighbours: Anderson's bound. -/
theorem RunData.anderson (h : RunData S d points v z bs ix) {J : ℝ} (hJ : 0 ≤ J)
    (hv : ∀ p c, ndist p (p + comb v c) ≠ d)
    (hinj : ∀ p x y : Pt m, ndist p x = d → ndist p y = d → ∀ c, y = x + comb v c → x = y)
    {ψ : Fin (2 ^ n) → ℂ} (hψ : ψ ≠ 0) : -(J * (z + 2) * n / 8) ≤ (expectation (bondSum n J ix bs) ψ).re := by
  rw [h.mean J fun b hb => h.apart hv hb]
  have key : ∀ k : Fin n, -((z : ℝ) + 2) / 4 ≤ ∑ x ∈ (h.finite k).toFinset, (expectation (dotOp n k (ix x)) ψ).re := by
    intro k
    have hin : Set.InjOn (fun x => (ix x : ℕ)) ((h.finite k).toFinset : Set (Pt m)) := by
      intro x hx y hy e
      obtain ⟨hx1, hx2⟩ := (h.mem k).1 (Finset.mem_coe.1 hx)
      obtain ⟨hy1, hy2⟩ := (h.mem k).1 (Finset.mem_coe.1 hy)
      obtain ⟨c, hc⟩ := h.back hx1
      obtain ⟨c', hc'⟩ := h.back hy1
      have e' : ix x = ix y := Fin.ext e
      refine hinj _ x y hx2 hy2 (c' - c) ?_
      rw [← e'] at hc'
      conv_lhs => rw [hc']
      conv_rhs => rw [hc]
      have : comb v (c' - c) = comb v c' - comb v c := by
        funext a
        simp only [comb, Pi.sub_apply, Int.cast_sub, sub_mul, Finset.sum_sub_distrib]
      rw [this]; abel
    have hs := star_bound k.2 ((h.finite k).toFinset.image fun x => (ix x : ℕ)) (fun j hj => by
      obtain ⟨x, hx, rfl⟩ := Finset.mem_image.1 hj
      exact ⟨(ix x).2, h.ne hv hx⟩) hψ
    rw [Finset.card_image_of_injOn hin, Finset.sum_image hin, h.card] at hs
    exact hs
  have hs := Finset.sum_le_sum fun k (_ : k ∈ Finset.univ) => key k
  rw [Finset.sum_const, Finset.card_univ, Fintype.card_fin, nsmul_eq_mul] at hs
  have := mul_le_mul_of_nonneg_left hs (by linarith : 0 ≤ J / 2)
  refine le_trans (le_of_eq ?_) this
  ring

theorem RunData.weak (h : RunData S d points v z bs ix) {J : ℝ} (hJ : 0 ≤ J)
    (hv : ∀ p c, ndist p (p + comb v c) ≠ d)
    {ψ : Fin (2 ^ n) → ℂ} (hψ : ψ ≠ 0) : -(J * (3 * z) * n / 8) ≤ (expectation (bondSum n J ix bs) ψ).re := by
  rw [h.mean J fun b hb => h.apart hv hb]
  have key : ∀ k : Fin n, (z : ℝ) * -(3 / 4) ≤ ∑ x ∈ (h.finite k).toFinset, (expectation (dotOp n k (ix x)) ψ).re := by
    intro k
    have := Finset.sum_le_sum fun x (hx : x ∈ (h.finite k).toFinset) =>
      dotOp_ge k.2 (ix x).2 (h.ne hv hx) hψ
    rwa [Finset.sum_const, h.card, nsmul_eq_mul] at this
  have hs := Finset.sum_le_sum fun k (_ : k ∈ Finset.univ) => key k
  rw [Finset.sum_const, Finset.card_univ, Fintype.card_fin, nsmul_eq_mul] at hs
  have := mul_le_mul_of_nonneg_left hs (by linarith : 0 ≤ J / 2)
  refine le_trans (le_of_eq ?_) this
  ring

theorem RunData.upper (h : RunData S d points v z bs ix) {J : ℝ} (hJ : 0 ≤ J)
    (hv : ∀ p c, ndist p (p + comb v c) ≠ d)
    {ψ : Fin (2 ^ n) → ℂ} (hψ : ψ ≠ 0) : (expectation (bondSum n J ix bs) ψ).re ≤ J * z * n / 8 := by
  rw [h.mean J fun b hb => h.apart hv hb]
  have key : ∀ k : Fin n, ∑ x ∈ (h.finite k).toFinset, (expectation (dotOp n k (ix x)) ψ).re ≤ (z : ℝ) * (1 / 4) := by
    intro k
    have := Finset.sum_le_sum fun x (hx : x ∈ (h.finite k).toFinset) =>
      dotOp_le n k (ix x) k.2 (ix x).2 (h.ne hv hx) ψ hψ
    rwa [Finset.sum_const, h.card, nsmul_eq_mul] at this
  have hs := Finset.sum_le_sum fun k (_ : k ∈ Finset.univ) => key k
  rw [Finset.sum_const (b := (z : ℝ) * (1 / 4)), Finset.card_univ, Fintype.card_fin, nsmul_eq_mul] at hs
  have := mul_le_mul_of_nonneg_left hs (by linarith : 0 ≤ J / 2)
  refine le_trans this (le_of_eq ?_)
  ring

/-- The sites of `S` are in `T` or not, neighbours are not alike, and the copies of a site are alike. -/
structure Stagger (S : Set (Pt m)) (d : ℝ) (v : Fin m → Pt m) (T : Set (Pt m)) : Prop where
  alternate : ∀ x ∈ S, ∀ y ∈ S, ndist x y = d → (x ∈ T ↔ y ∉ T)
  periodic : ∀ x c, x ∈ T → x + comb v c ∈ T

theorem comb_neg' (c : Fin m → ℤ) : comb v (-c) = -comb v c := by
  funext a
  simp only [comb, Pi.neg_apply, Int.cast_neg, neg_mul, Finset.sum_neg_distrib]

theorem Stagger.iff {T : Set (Pt m)} (hT : Stagger S d v T) (x : Pt m) (c : Fin m → ℤ) : x + comb v c ∈ T ↔ x ∈ T := by
  refine ⟨fun h => ?_, hT.periodic x c⟩
  have := hT.periodic _ (-c) h
  rwa [comb_neg', add_neg_cancel_right] at this

theorem expectation_single {N : ℕ} (M : Matrix (Fin N) (Fin N) ℂ) (a : Fin N) :
    expectation M (Pi.single a 1) = M a a := by
  unfold expectation
  rw [Matrix.mulVec_single_one]
  simp [dotProduct, Pi.single_apply, Matrix.col_apply]

theorem RunData.neel (h : RunData S d points v z bs ix) (J : ℝ)
    (hv : ∀ p c, ndist p (p + comb v c) ≠ d) {T : Set (Pt m)} (hT : Stagger S d v T) :
    ∃ a : Fin (2 ^ n), (expectation (bondSum n J ix bs) (Pi.single a 1)).re = -(J * z * n / 8) := by
  obtain ⟨a, h1, h2⟩ := exists_digits (fun i => if hi : i < n then decide (points ⟨i, hi⟩ ∈ T) else false) n
  refine ⟨⟨a, h1⟩, ?_⟩
  rw [h.mean J fun b hb => h.apart hv hb]
  have key : ∀ k : Fin n, ∀ x ∈ (h.finite k).toFinset,
      (expectation (dotOp n k (ix x)) (Pi.single (⟨a, h1⟩ : Fin (2 ^ n)) 1)).re = -(1 / 4) := by
    intro k x hx
    obtain ⟨hx1, hx2⟩ := (h.mem k).1 hx
    obtain ⟨c, hc⟩ := h.back hx1
    rw [expectation_single, dotOp_diag (ix x).2 (h.ne hv hx), if_neg]
    · norm_num
    · rw [digit_eq_iff]
      have e1 := h2 k k.2
      have e2 := h2 (ix x) (ix x).2
      rw [dif_pos k.2] at e1
      rw [dif_pos (ix x).2] at e2
      dsimp only
      rw [e1, e2, decide_eq_decide]
      have h3 := hT.alternate _ (h.site k) x hx1 hx2
      have h4 : x ∈ T ↔ points (ix x) ∈ T := by
        conv_lhs => rw [hc]
        exact hT.iff _ c
      rw [← h4]
      tauto
  rw [Finset.sum_congr rfl fun k _ => Finset.sum_congr rfl (key k)]
  simp only [Finset.sum_const, h.card, Finset.card_univ, Fintype.card_fin, nsmul_eq_mul]
  ring

theorem mean_eigen {N : ℕ} {M : Matrix (Fin N) (Fin N) ℂ} {w : Fin N → ℂ} (hw : w ≠ 0) {E : ℝ} (h : M *ᵥ w = (E : ℂ) • w) :
    (expectation M w).re = E := by
  have e : expectation M w = (E : ℂ) * expectation 1 w := by
    unfold expectation
    rw [h, Matrix.one_mulVec, dotProduct_smul, smul_eq_mul, mul_div_assoc]
  rw [e, expectation_one w hw, mul_one, Complex.ofReal_re]

theorem lowest_ge {N : ℕ} (hN : 0 < N) {M : Matrix (Fin N) (Fin N) ℂ} (hM : M.IsHermitian) {b : ℝ}
    (h : ∀ ψ, ψ ≠ 0 → b ≤ (expectation M ψ).re) : ∃ E, IsLowest M E ∧ b ≤ E := by
  obtain ⟨E, hE, -⟩ := exists_lowest hN hM
  refine ⟨E, hE, ?_⟩
  obtain ⟨w, hw, he⟩ := hE.1
  rw [← mean_eigen hw he]
  exact h w hw

theorem lowest_le {N : ℕ} {M : Matrix (Fin N) (Fin N) ℂ} (hM : M.IsHermitian) {b : ℝ} {a : Fin N}
    (h : (expectation M (Pi.single a 1)).re ≤ b) : ∃ E, IsLowest M E ∧ E ≤ b := by
  obtain ⟨E, hE, hf⟩ := exists_lowest (lt_of_le_of_lt (Nat.zero_le _) a.2) hM
  refine ⟨E, hE, le_trans ?_ h⟩
  have h1 := hf (Pi.single a 1)
  have e1 : norm2 (Pi.single a (1 : ℂ)) = 1 := by
    unfold norm2
    rw [Finset.sum_eq_single a] <;> simp +contextual
  have e2 : form M (Pi.single a 1) = (expectation M (Pi.single a 1)).re := by
    unfold form
    rw [expectation_single, Matrix.mulVec_single_one]
    simp [dotProduct, Pi.single_apply, Matrix.col_apply]
  rwa [e1, mul_one, e2] at h1

end model

section runs

variable {m prec : ℕ}

/-- The vectors of the superlattice are zero or longer than `2 d`. -/
def Far (v : Fin m → Pt m) (d : ℝ) : Prop := ∀ c, ∑ a, comb v c a ^ 2 = 0 ∨ 4 * d ^ 2 < ∑ a, comb v c a ^ 2

theorem Far.apart {v : Fin m → Pt m} {d : ℝ} (hd : 0 < d) (h : Far v d) : ∀ p c, ndist p (p + comb v c) ≠ d := by
  refine apart_of hd.le fun c e => ?_
  have : 0 < d ^ 2 := by positivity
  rcases h c with h | h <;> linarith

theorem Far.inj {v : Fin m → Pt m} {d : ℝ} (hd : 0 < d) (h : Far v d) (p x y : Pt m) (hx : ndist p x = d)
    (hy : ndist p y = d) (c : Fin m → ℤ) (e : y = x + comb v c) : x = y := by
  rw [ndist_eq_iff hd.le] at hx hy
  have hle : ∑ a, comb v c a ^ 2 ≤ 4 * d ^ 2 := by
    have h1 : ∀ a, comb v c a ^ 2 ≤ 2 * (x a - p a) ^ 2 + 2 * (y a - p a) ^ 2 := by
      intro a
      have : comb v c a = (y a - p a) - (x a - p a) := by rw [e, Pi.add_apply]; ring
      rw [this]
      nlinarith [sq_nonneg ((y a - p a) + (x a - p a))]
    have h2 := Finset.sum_le_sum fun a (_ : a ∈ Finset.univ) => h1 a
    rw [Finset.sum_add_distrib, ← Finset.mul_sum, ← Finset.mul_sum] at h2
    have hx' : ∑ a, (x a - p a) ^ 2 = d ^ 2 := by
      rw [← hx]; exact Finset.sum_congr rfl fun a _ => by ring
    have hy' : ∑ a, (y a - p a) ^ 2 = d ^ 2 := by
      rw [← hy]; exact Finset.sum_congr rfl fun a _ => by ring
    linarith
  rcases h c with h0 | h0
  · have : comb v c = 0 := by
      funext a
      have := (Finset.sum_eq_zero_iff_of_nonneg fun a _ => sq_nonneg (comb v c a)).1 h0 a (Finset.mem_univ _)
      exact pow_eq_zero_iff two_ne_zero |>.1 this
    rw [e, this, add_zero]
  · linarith

theorem anderson_run {S : Set (Pt m)} {d : ℝ} (hd0 : 0 < d) {z count : ℕ} (hz : 0 < z) (hc0 : 1 ≤ count)
    (hc : Coordination S d z) {v : Fin m → Pt m} {r : Py Built} (ht : ReturnsTiling S count v r)
    (hf : FindsNearest prec S d r) (hfold : FoldsEverySite prec S r) (hv : Far v d) :
    EverySpinRun (m := m) prec count r (LowestAtLeast (z + 2)) := by
  obtain ⟨L0, h1, rfl, h3⟩ := ht
  refine ⟨L0, h1, fun near hnear order horder porder hporder calls J => ?_⟩
  obtain ⟨bs, ix, U, hD, hU, hH⟩ := spin_core hd0.ne' hz hc0 hc h1 h3 hf hfold hnear horder hporder calls J
  refine ⟨U, hU, fun hJ => ?_⟩
  rw [hH]
  exact lowest_ge (by positivity) (bondSum_hermitian J) fun ψ hψ => hD.anderson hJ (hv.apart hd0) (hv.inj hd0) hψ

theorem weak_run {S : Set (Pt m)} {d : ℝ} (hd0 : 0 < d) {z count : ℕ} (hz : 0 < z) (hc0 : 1 ≤ count)
    (hc : Coordination S d z) {v : Fin m → Pt m} {r : Py Built} (ht : ReturnsTiling S count v r)
    (hf : FindsNearest prec S d r) (hfold : FoldsEverySite prec S r) (hv : ∀ p c, ndist p (p + comb v c) ≠ d) :
    EverySpinRun (m := m) prec count r fun L J H => LowestAtLeast (3 * z) L J H ∧ HighestUp z L J H := by
  obtain ⟨L0, h1, rfl, h3⟩ := ht
  refine ⟨L0, h1, fun near hnear order horder porder hporder calls J => ?_⟩
  obtain ⟨bs, ix, U, hD, hU, hH⟩ := spin_core hd0.ne' hz hc0 hc h1 h3 hf hfold hnear horder hporder calls J
  refine ⟨U, hU, fun hJ => ?_, fun hJ => ?_⟩
  · rw [hH]
    exact lowest_ge (by positivity) (bondSum_hermitian J) fun ψ hψ => hD.weak hJ hv hψ
  · rw [hH]
    exact ⟨hD.up J fun b hb => hD.apart hv hb, fun ψ hψ => hD.upper hJ hv hψ⟩

theorem neel_run {S : Set (Pt m)} {d : ℝ} (hd0 : 0 < d) {z count : ℕ} (hz : 0 < z) (hc0 : 1 ≤ count)
    (hc : Coordination S d z) {v : Fin m → Pt m} {r : Py Built} (ht : ReturnsTiling S count v r)
    (hf : FindsNearest prec S d r) (hfold : FoldsEverySite prec S r) (hv : ∀ p c, ndist p (p + comb v c) ≠ d)
    {T : Set (Pt m)} (hT : Stagger S d v T) : EverySpinRun (m := m) prec count r (LowestAtMost z) := by
  obtain ⟨L0, h1, rfl, h3⟩ := ht
  refine ⟨L0, h1, fun near hnear order horder porder hporder calls J => ?_⟩
  obtain ⟨bs, ix, U, hD, hU, hH⟩ := spin_core hd0.ne' hz hc0 hc h1 h3 hf hfold hnear horder hporder calls J
  refine ⟨U, hU, fun _ => ?_⟩
  rw [hH]
  obtain ⟨a, ha⟩ := hD.neel J hv hT
  exact lowest_le (bondSum_hermitian J) ha.le

/-- Two points: the singlet. -/
theorem singlet_run {S : Set (Pt m)} {d : ℝ} (hd0 : 0 < d) {z : ℕ} (hz : 0 < z)
    (hc : Coordination S d z) {v : Fin m → Pt m} {r : Py Built} (ht : ReturnsTiling S 2 v r)
    (hf : FindsNearest prec S d r) (hfold : FoldsEverySite prec S r) (hv : ∀ p c, ndist p (p + comb v c) ≠ d) :
    EverySpinRun (m := m) prec 2 r fun _ J H => 0 ≤ J → IsLowest H (-(J * (3 * z) * 2 / 8)) := by
  obtain ⟨L0, h1, rfl, h3⟩ := ht
  refine ⟨L0, h1, fun near hnear order horder porder hporder calls J => ?_⟩
  obtain ⟨bs, ix, U, hD, hU, hH⟩ := spin_core hd0.ne' hz (by norm_num) hc h1 h3 hf hfold hnear horder hporder calls J
  refine ⟨U, hU, fun hJ => ?_⟩
  rw [hH]
  obtain ⟨E, hE, hb⟩ := lowest_ge (by positivity) (bondSum_hermitian J) fun ψ hψ => hD.weak hJ hv hψ
  suffices h : E = -(J * (3 * z) * 2 / 8) by rw [← h]; exact hE
  refine le_antisymm ?_ (by push_cast at hb; exact hb)
  set D := dotOp 2 0 1 with hDD
  have hsum : bondSum 2 J ix bs = ((bs.length : ℝ) * J : ℝ) • D := by
    rw [bondSum_apart J fun b hb => hD.apart hv hb]
    have : bs.map (fun b => (J : ℂ) • Spec.spinDot 2 (ix b.1) (ix b.2)) = bs.map fun _ => (J : ℂ) • D := by
      refine List.map_congr_left fun b hb => ?_
      have hne := hD.apart hv hb
      congr 1
      have h01 : Spec.spinDot 2 0 1 = D := rfl
      have h10 : Spec.spinDot 2 1 0 = D := by rw [← h01]; exact spinDot_comm (by norm_num) (by norm_num)
      generalize ix b.1 = p at *
      generalize ix b.2 = q at *
      fin_cases p <;> fin_cases q
      · exact absurd rfl hne
      · exact h01
      · exact h10
      · exact absurd rfl hne
    rw [this, List.map_const', List.sum_replicate]
    rw [← Nat.cast_smul_eq_nsmul ℂ, smul_smul]
    ext r c
    simp only [Matrix.smul_apply, smul_eq_mul, Complex.real_smul]
    push_cast
    ring
  have hlen : (bs.length : ℝ) = z := by
    have := hD.length
    have : 2 * (bs.length : ℝ) = z * 2 := by exact_mod_cast this
    linarith
  obtain ⟨a, ha⟩ : ∃ a : Fin (2 ^ 2), digit a 0 ≠ digit a 1 := ⟨1, by decide⟩
  set w : Fin (2 ^ 2) → ℂ := (D + (-(1 / 4) : ℂ) • 1) *ᵥ Pi.single a 1 with hw
  have hDw : D *ᵥ w = (-(3 / 4) : ℂ) • w := by
    rw [hw, Matrix.mulVec_mulVec, ← Matrix.smul_mulVec]
    congr 1
    rw [mul_add, dotOp_sq 2 0 1 (by norm_num) (by norm_num) (by norm_num), mul_smul_comm, mul_one]
    module
  have hw0 : w ≠ 0 := by
    intro h
    have := congrFun h a
    rw [hw, Matrix.mulVec_single_one, Matrix.col_apply, Matrix.add_apply, hDD,
      dotOp_diag (i := 0) (j := 1) (by norm_num) (by norm_num), if_neg ha, Matrix.smul_apply, Matrix.one_apply_eq] at this
    norm_num at this
  have h4 := (hE.2 ((-(J * (3 * z) * 2 / 8) : ℝ) : ℂ) w hw0 (by
    rw [hsum, hlen]
    have : ((z : ℝ) * J) • D = (((z : ℝ) * J : ℝ) : ℂ) • D := by
      ext r c
      simp only [Matrix.smul_apply, smul_eq_mul, Complex.real_smul]
    rw [this, Matrix.smul_mulVec, hDw, smul_smul]
    congr 1
    push_cast
    ring)).2
  rwa [Complex.ofReal_re] at h4

/-! ### Superlattices -/

theorem far_int {c n : ℤ} (hn : 3 ≤ n) : c * n = 0 ∨ 9 ≤ (c * n) ^ 2 := by
  by_cases h : c = 0
  · left; rw [h, zero_mul]
  · right
    have : 1 ≤ c ^ 2 := by
      have := sq_nonneg c
      have : c ^ 2 ≠ 0 := pow_ne_zero 2 h
      omega
    have h2 : 9 ≤ n ^ 2 := by nlinarith
    rw [mul_pow]
    nlinarith

theorem far_of_int {v : Fin m → Pt m} {d : ℝ} {f : (Fin m → ℤ) → ℤ} (h1 : ∀ c, ∑ a, comb v c a ^ 2 = (f c : ℝ))
    {k : ℤ} (hk : 4 * d ^ 2 < k) (h2 : ∀ c, f c = 0 ∨ k ≤ f c) : Far v d := by
  intro c
  rw [h1]
  rcases h2 c with h | h
  · left; rw [h, Int.cast_zero]
  · right
    refine lt_of_lt_of_le hk ?_
    exact_mod_cast h

theorem far_chain {n0 : ℤ} (h0 : 3 ≤ n0) : Far ![![(n0 : ℝ)]] 1 := by
  refine far_of_int (f := fun c => (c 0 * n0) ^ 2) (k := 9) (fun c => ?_) (by norm_num) fun c => ?_
  · simp only [comb, Fin.sum_univ_one, Matrix.cons_val_fin_one]
    push_cast; rfl
  · rcases far_int (c := c 0) h0 with h | h
    · left; rw [h]; rfl
    · right; exact h

theorem far_square {n0 n1 : ℤ} (h0 : 3 ≤ n0) (h1 : 3 ≤ n1) : Far ![![(n0 : ℝ), 0], ![0, (n1 : ℝ)]] 1 := by
  refine far_of_int (f := fun c => (c 0 * n0) ^ 2 + (c 1 * n1) ^ 2) (k := 9) (fun c => ?_) (by norm_num) fun c => ?_
  · simp only [comb, Fin.sum_univ_two, Matrix.cons_val_zero, Matrix.cons_val_one, Matrix.cons_val_fin_one,
      mul_zero, add_zero, zero_add]
    push_cast; rfl
  · have p0 := sq_nonneg (c 0 * n0)
    have p1 := sq_nonneg (c 1 * n1)
    rcases far_int (c := c 0) h0 with h | h <;> rcases far_int (c := c 1) h1 with h' | h'
    · left; rw [h, h']; rfl
    all_goals right; omega

theorem far_cubic {n0 n1 n2 : ℤ} (h0 : 3 ≤ n0) (h1 : 3 ≤ n1) (h2 : 3 ≤ n2) :
    Far ![![(n0 : ℝ), 0, 0], ![0, (n1 : ℝ), 0], ![0, 0, (n2 : ℝ)]] 1 := by
  refine far_of_int (f := fun c => (c 0 * n0) ^ 2 + (c 1 * n1) ^ 2 + (c 2 * n2) ^ 2) (k := 9) (fun c => ?_) (by norm_num)
    fun c => ?_
  · simp only [comb, Fin.sum_univ_three, Matrix.cons_val_zero, Matrix.cons_val_one, Matrix.cons_val_two,
      Matrix.head_cons, Matrix.tail_cons, mul_zero, add_zero, zero_add]
    push_cast; rfl
  · have p0 := sq_nonneg (c 0 * n0)
    have p1 := sq_nonneg (c 1 * n1)
    have p2 := sq_nonneg (c 2 * n2)
    rcases far_int (c := c 0) h0 with h | h <;> rcases far_int (c := c 1) h1 with h' | h' <;>
      rcases far_int (c := c 2) h2 with h'' | h''
    · left; rw [h, h', h'']; rfl
    all_goals right; omega

theorem eisenstein_far {x y k : ℤ} (hx : x = 0 ∨ k ≤ x ^ 2) (hy : y = 0 ∨ k ≤ y ^ 2) (_ : 0 ≤ k) :
    x ^ 2 + x * y + y ^ 2 = 0 ∨ 3 * k ≤ 4 * (x ^ 2 + x * y + y ^ 2) := by
  rcases hy with h' | h'
  · subst h'
    rcases hx with h | h
    · left; rw [h]; ring
    · right; nlinarith
  · right
    nlinarith [sq_nonneg (2 * x + y)]

theorem far_triangle {n0 n1 : ℤ} (h0 : 3 ≤ n0) (h1 : 3 ≤ n1) :
    Far ![![(n0 : ℝ), 0], ![(n1 : ℝ) / 2, n1 * (Real.sqrt 3 / 2)]] 1 := by
  refine far_of_int (k := 6) (triangle_norm n0 n1) (by norm_num) fun c => ?_
  rcases eisenstein_far (far_int (c := c 0) h0) (far_int (c := c 1) h1) (by norm_num) with h | h <;> omega

theorem far_small {n0 n1 : ℤ} (h0 : 2 ≤ n0) (h1 : 2 ≤ n1) {d : ℝ} (hd : 4 * d ^ 2 < 3) :
    Far ![![(n0 : ℝ), 0], ![(n1 : ℝ) / 2, n1 * (Real.sqrt 3 / 2)]] d := by
  refine far_of_int (k := 3) (triangle_norm n0 n1) (by exact_mod_cast hd) fun c => ?_
  rcases eisenstein_far (big_square (c := c 0) h0) (big_square (c := c 1) h1) (by norm_num) with h | h <;> omega

theorem far_cross : Far ![![(3 : ℝ), -2], ![3, 2]] 1 := by
  refine far_of_int (f := fun c => 9 * (c 0 + c 1) ^ 2 + 4 * (c 1 - c 0) ^ 2) (k := 9) (fun c => ?_) (by norm_num)
    fun c => ?_
  · simp only [comb, Fin.sum_univ_two, Matrix.cons_val_zero, Matrix.cons_val_one, Matrix.cons_val_fin_one]
    push_cast; ring
  · have p0 := sq_nonneg (c 0 + c 1)
    have p1 := sq_nonneg (c 1 - c 0)
    by_cases h : (c 0 + c 1) ^ 2 = 0
    · have h' : c 0 + c 1 = 0 := pow_eq_zero_iff two_ne_zero |>.1 h
      have e : c 1 = - c 0 := by omega
      rw [h, e]
      by_cases h0 : c 0 = 0
      · left; rw [h0]; rfl
      · right
        have : 1 ≤ c 0 ^ 2 := by
          have := sq_nonneg (c 0)
          have : c 0 ^ 2 ≠ 0 := pow_ne_zero 2 h0
          omega
        nlinarith
    · right; omega

theorem far_ten {v : Fin 2 → Pt 2} (h : ∀ c, ∑ a, comb v c a ^ 2 = ((10 * (c 0 ^ 2 + c 1 ^ 2) : ℤ) : ℝ)) : Far v 1 := by
  refine far_of_int (k := 10) h (by norm_num) fun c => ?_
  have p0 := sq_nonneg (c 0)
  have p1 := sq_nonneg (c 1)
  omega

theorem far_z : Far ![![(1 : ℝ), -3], ![3, 1]] 1 := far_ten fun c => by
  simp only [comb, Fin.sum_univ_two, Matrix.cons_val_zero, Matrix.cons_val_one, Matrix.cons_val_fin_one]
  push_cast; ring

theorem far_s : Far ![![(3 : ℝ), -1], ![1, 3]] 1 := far_ten fun c => by
  simp only [comb, Fin.sum_univ_two, Matrix.cons_val_zero, Matrix.cons_val_one, Matrix.cons_val_fin_one]
  push_cast; ring

theorem eisenstein_int (x y : ℤ) : 0 ≤ x ^ 2 + x * y + y ^ 2 := by nlinarith [sq_nonneg (2 * x + y), sq_nonneg y]

theorem far_star : Far ![![(7 : ℝ) / 2, Real.sqrt 3 / 2], ![1, 2 * Real.sqrt 3]] 1 := by
  have h3 : Real.sqrt 3 ^ 2 = 3 := Real.sq_sqrt (by norm_num)
  refine far_of_int (f := fun c => 13 * (c 0 ^ 2 + c 0 * c 1 + c 1 ^ 2)) (k := 13) (fun c => ?_) (by norm_num) fun c => ?_
  · simp only [comb, Fin.sum_univ_two, Matrix.cons_val_zero, Matrix.cons_val_one, Matrix.cons_val_fin_one]
    push_cast
    linear_combination ((c 0 : ℝ) / 2 + 2 * c 1) ^ 2 * h3
  · have := eisenstein_int (c 0) (c 1)
    omega

theorem inv_sqrt3_far : 4 * (1 / Real.sqrt 3) ^ 2 < (3 : ℤ) := by
  rw [div_pow, Real.sq_sqrt (by norm_num)]; norm_num

theorem far_benzene : Far ![![(3 : ℝ) / 2, -Real.sqrt 3 / 2], ![3 / 2, Real.sqrt 3 / 2]] (1 / Real.sqrt 3) := by
  have h3 : Real.sqrt 3 ^ 2 = 3 := Real.sq_sqrt (by norm_num)
  refine far_of_int (f := fun c => 3 * (c 0 ^ 2 + c 0 * c 1 + c 1 ^ 2)) (k := 3) (fun c => ?_) inv_sqrt3_far fun c => ?_
  · simp only [comb, Fin.sum_univ_two, Matrix.cons_val_zero, Matrix.cons_val_one, Matrix.cons_val_fin_one]
    push_cast
    linear_combination ((c 1 : ℝ) / 2 - c 0 / 2) ^ 2 * h3
  · have := eisenstein_int (c 0) (c 1)
    omega

theorem far_diphenyl : Far ![![(5 : ℝ) / 2, -Real.sqrt 3 / 2], ![5 / 2, Real.sqrt 3 / 2]] (1 / Real.sqrt 3) := by
  have h3 : Real.sqrt 3 ^ 2 = 3 := Real.sq_sqrt (by norm_num)
  refine far_of_int (f := fun c => 7 * c 0 ^ 2 + 11 * (c 0 * c 1) + 7 * c 1 ^ 2) (k := 3) (fun c => ?_) inv_sqrt3_far
    fun c => ?_
  · simp only [comb, Fin.sum_univ_two, Matrix.cons_val_zero, Matrix.cons_val_one, Matrix.cons_val_fin_one]
    push_cast
    linear_combination ((c 1 : ℝ) / 2 - c 0 / 2) ^ 2 * h3
  · have p0 := sq_nonneg (c 0)
    have p1 := sq_nonneg (c 1)
    have p2 := sq_nonneg (c 0 + c 1)
    have e : 2 * (7 * c 0 ^ 2 + 11 * (c 0 * c 1) + 7 * c 1 ^ 2) = 3 * c 0 ^ 2 + 3 * c 1 ^ 2 + 11 * (c 0 + c 1) ^ 2 := by ring
    have e2 : (c 0 + c 1) ^ 2 = c 0 ^ 2 + 2 * (c 0 * c 1) + c 1 ^ 2 := by ring
    by_cases h : c 0 = 0
    · by_cases h' : c 1 = 0
      · left; rw [h, h']; rfl
      · right
        have : 1 ≤ c 1 ^ 2 := by
          have : c 1 ^ 2 ≠ 0 := pow_ne_zero 2 h'
          omega
        rw [h]; omega
    · have h1 : 1 ≤ c 0 ^ 2 := by
        have : c 0 ^ 2 ≠ 0 := pow_ne_zero 2 h
        omega
      right
      by_cases h' : c 1 = 0
      · rw [h']; omega
      · have : 1 ≤ c 1 ^ 2 := by
          have : c 1 ^ 2 ≠ 0 := pow_ne_zero 2 h'
          omega
        omega

theorem far_gear : Far ![![(3 : ℝ), -Real.sqrt 3], ![3, Real.sqrt 3]] (1 / Real.sqrt 3) := by
  have h3 : Real.sqrt 3 ^ 2 = 3 := Real.sq_sqrt (by norm_num)
  refine far_of_int (f := fun c => 3 * (3 * (c 0 + c 1) ^ 2 + (c 1 - c 0) ^ 2)) (k := 3) (fun c => ?_) inv_sqrt3_far
    fun c => ?_
  · simp only [comb, Fin.sum_univ_two, Matrix.cons_val_zero, Matrix.cons_val_one, Matrix.cons_val_fin_one]
    push_cast
    linear_combination ((c 1 : ℝ) - c 0) ^ 2 * h3
  · have p0 := sq_nonneg (c 0 + c 1)
    have p1 := sq_nonneg (c 1 - c 0)
    omega

/-! ### Staggered patterns -/

theorem Stagger.shift {S : Set (Pt m)} {d : ℝ} {v : Fin m → Pt m} {T : Set (Pt m)} (h : Stagger S d v T) (t : Pt m) :
    Stagger (shifted t S) d v (shifted t T) := by
  refine ⟨fun x hx y hy e => h.alternate _ hx _ hy ?_, fun x c hx => ?_⟩
  · rw [← e]
    unfold ndist
    congr 1
    refine Finset.sum_congr rfl fun i _ => ?_
    simp
  · have := h.periodic (x - t) c hx
    change x + comb v c - t ∈ T
    rwa [add_sub_right_comm]

theorem stagger_parity {S : Set (Pt m)} (hS : ∀ x ∈ S, ∃ a : Fin m → ℤ, ∀ i, x i = a i) {v : Fin m → Pt m}
    (hv : ∀ c, ∃ k : ℤ, ∑ i, comb v c i = 2 * k) : Stagger S 1 v {x | ∃ k : ℤ, ∑ i, x i = 2 * k} := by
  refine ⟨fun x hx y hy h => ?_, fun x c ⟨k, hk⟩ => ?_⟩
  · obtain ⟨a, ha⟩ := hS x hx
    obtain ⟨b, hb⟩ := hS y hy
    have key : ∃ k, ∑ i, a i - ∑ i, b i = 2 * k + 1 := by
      rw [ndist_eq_iff zero_le_one] at h
      simp only [ha, hb] at h
      have h' : ∑ i, (a i - b i) ^ 2 = 1 := by
        have : ((∑ i, (a i - b i) ^ 2 : ℤ) : ℝ) = 1 := by push_cast; linarith
        exact_mod_cast this
      have e : ∀ i, ∃ p, (a i - b i) ^ 2 = (a i - b i) + 2 * p := fun i => by
        obtain ⟨p, hp⟩ := Int.even_mul_pred_self (a i - b i)
        exact ⟨p, by linear_combination hp⟩
      choose p hp using e
      refine ⟨-∑ i, p i, ?_⟩
      simp only [hp, Finset.sum_add_distrib, ← Finset.mul_sum, Finset.sum_sub_distrib] at h'
      linarith
    obtain ⟨q, hq⟩ := key
    constructor
    · rintro ⟨k, hk⟩ ⟨l, hl⟩
      simp only [ha] at hk
      simp only [hb] at hl
      have hk' : ∑ i, a i = 2 * k := by exact_mod_cast hk
      have hl' : ∑ i, b i = 2 * l := by exact_mod_cast hl
      omega
    · intro hl
      have hl' : ∀ k, ∑ i, b i ≠ 2 * k := fun k e => hl ⟨k, by simp only [hb]; exact_mod_cast e⟩
      rcases Int.even_or_odd' (∑ i, a i) with ⟨k, e | e⟩
      · exact ⟨k, by simp only [ha]; exact_mod_cast e⟩
      · exact absurd (by linarith) (hl' (k - q))
  · obtain ⟨l, hl⟩ := hv c
    refine ⟨k + l, ?_⟩
    simp only [Pi.add_apply, Finset.sum_add_distrib]
    rw [hk, hl]
    push_cast; ring

theorem stagger_chain {n0 : ℤ} (h0 : Even n0) :
    Stagger chainSites 1 ![![(n0 : ℝ)]] {x | ∃ k : ℤ, ∑ i, x i = 2 * k} := by
  obtain ⟨k0, rfl⟩ := h0
  refine stagger_parity (S := chainSites) (fun x ⟨a, hx⟩ => ⟨![a], fun i => by subst hx; fin_cases i; simp⟩) fun c => ⟨c 0 * k0, ?_⟩
  simp only [comb, Fin.sum_univ_one, Matrix.cons_val_fin_one]
  push_cast; ring

theorem stagger_square {v : Fin 2 → Pt 2} (hv : ∀ c, ∃ k : ℤ, ∑ i, comb v c i = 2 * k) :
    Stagger squareSites 1 v {x | ∃ k : ℤ, ∑ i, x i = 2 * k} :=
  stagger_parity (S := squareSites) (fun x ⟨a, b, hx⟩ => ⟨![a, b], fun i => by subst hx; fin_cases i <;> simp⟩) hv

theorem stagger_cubic {n0 n1 n2 : ℤ} (h0 : Even n0) (h1 : Even n1) (h2 : Even n2) :
    Stagger cubicSites 1 ![![(n0 : ℝ), 0, 0], ![0, (n1 : ℝ), 0], ![0, 0, (n2 : ℝ)]] {x | ∃ k : ℤ, ∑ i, x i = 2 * k} := by
  obtain ⟨k0, rfl⟩ := h0
  obtain ⟨k1, rfl⟩ := h1
  obtain ⟨k2, rfl⟩ := h2
  refine stagger_parity (S := cubicSites) (fun x ⟨a, b, c, hx⟩ => ⟨![a, b, c], fun i => by subst hx; fin_cases i <;> simp⟩) fun c =>
    ⟨c 0 * k0 + c 1 * k1 + c 2 * k2, ?_⟩
  simp only [comb, Fin.sum_univ_three, Matrix.cons_val_zero, Matrix.cons_val_one, Matrix.cons_val_two,
    Matrix.head_cons, Matrix.tail_cons, mul_zero, add_zero, zero_add]
  push_cast; ring

theorem stagger_honeycomb {v : Fin 2 → Pt 2}
    (hv : ∀ c, ∃ a b : ℤ, comb v c 0 = a + (b : ℝ) / 2 ∧ comb v c 1 = b * (Real.sqrt 3 / 2)) :
    Stagger honeycombSites (1 / Real.sqrt 3) v
      {x | ∃ a b : ℤ, x 0 = a + (b : ℝ) / 2 ∧ x 1 = b * (r3 / 2) + (-1 : ℤ) * (r3 / 6)} := by
  have h3 : r3 * r3 = 3 := r3_sq
  refine ⟨fun x hx y hy h => ?_, fun x c ⟨a, b, h0, h1⟩ => ?_⟩
  · obtain ⟨a, b, e, he, hs0, hs1⟩ := (honeycomb_iff x).1 hx
    obtain ⟨c, f, g, hg, ht0, ht1⟩ := (honeycomb_iff y).1 hy
    have key : 12 * ((c - a) ^ 2 + (c - a) * (f - b) + (f - b) ^ 2) + 6 * ((f - b) * (g - e)) + (g - e) ^ 2 = 4 := by
      rw [ndist_eq_iff inv_sqrt3_pos.le, inv_sqrt3_sq, Fin.sum_univ_two, hs0, hs1, ht0, ht1] at h
      rw [← @Int.cast_inj ℝ]
      push_cast
      linear_combination 12 * h - (3 * ((f : ℝ) - b) ^ 2 + 2 * ((f : ℝ) - b) * (g - e) + ((g : ℝ) - e) ^ 2 / 3) * h3
    have hT : ∀ (s : Pt 2) (a b e : ℤ), (e = -1 ∨ e = 1) → s 0 = a + (b : ℝ) / 2 → s 1 = b * (r3 / 2) + e * (r3 / 6) →
        ((∃ a b : ℤ, s 0 = a + (b : ℝ) / 2 ∧ s 1 = b * (r3 / 2) + (-1 : ℤ) * (r3 / 6)) ↔ e = -1) := by
      intro s a b e he h0 h1
      constructor
      · rintro ⟨a', b', -, h1'⟩
        rw [h1] at h1'
        have hr : r3 / 6 ≠ 0 := div_ne_zero r3_ne (by norm_num)
        have : ((3 * b + e : ℤ) : ℝ) = ((3 * b' - 1 : ℤ) : ℝ) := by
          refine mul_right_cancel₀ hr ?_
          push_cast
          push_cast at h1'
          linear_combination h1'
        have : 3 * b + e = 3 * b' - 1 := by exact_mod_cast this
        omega
      · rintro rfl
        exact ⟨a, b, h0, h1⟩
    rw [Set.mem_ofPred_eq, Set.mem_ofPred_eq, hT x a b e he hs0 hs1, hT y c f g hg ht0 ht1]
    rcases he with rfl | rfl <;> rcases hg with rfl | rfl
    · exfalso
      have : 12 * ((c - a) ^ 2 + (c - a) * (f - b) + (f - b) ^ 2) = 4 := by linarith
      omega
    · norm_num
    · norm_num
    · exfalso
      have : 12 * ((c - a) ^ 2 + (c - a) * (f - b) + (f - b) ^ 2) = 4 := by linarith
      omega
  · obtain ⟨p, q, e0, e1⟩ := hv c
    refine ⟨a + p, b + q, ?_, ?_⟩
    · rw [Pi.add_apply, h0, e0]; push_cast; ring
    · rw [Pi.add_apply, h1, e1]
      change _ + (q : ℝ) * (r3 / 2) = _
      push_cast; ring

end runs

end Verif.LDB
