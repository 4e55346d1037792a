import Verif.Proofs.Singlet
/-!
# Lemmas for C131: the ground state of an antiferromagnet with two sublattices
-/

namespace Verif.LDB

open Verif.Spec Matrix

variable {n : ℕ}

/-- Two sublattices of equal size, connected. -/
structure Halves (A : Fin n → Prop) (l : List (Fin n × Fin n)) (p : Fin n → Fin n) : Prop where
  pair : ∀ i, p (p i) = i
  other : ∀ i, A (p i) ↔ ¬ A i
  alternate : ∀ b ∈ l, ¬ (A b.1 ↔ A b.2)
  linked : Linked l

variable {A : Fin n → Prop} [DecidablePred A] {p : Fin n → Fin n} {l : List (Fin n × Fin n)} {J : ℝ}

theorem Halves.ne (h : Halves A l p) {b : Fin n × Fin n} (hb : b ∈ l) : b.1 ≠ b.2 := fun e =>
  h.alternate b hb (by rw [e])

theorem Halves.card (h : Halves A l p) : 2 * (Finset.univ.filter A).card = n := by
  have h1 : (Finset.univ.filter A).card = (Finset.univ.filter fun i => ¬ A i).card := by
    refine Finset.card_bij (fun i _ => p i) (fun i hi => ?_) (fun i _ j _ e => ?_) fun j hj => ⟨p j, ?_, h.pair j⟩
    · rw [Finset.mem_filter] at hi ⊢
      exact ⟨Finset.mem_univ _, fun e => (h.other i).1 e hi.2⟩
    · rw [← h.pair i, e, h.pair]
    · rw [Finset.mem_filter] at hj ⊢
      exact ⟨Finset.mem_univ _, (h.other j).2 hj.2⟩
  have h2 := Finset.card_filter_add_card_filter_not (s := (Finset.univ : Finset (Fin n))) A
  rw [← h1, Finset.card_univ, Fintype.card_fin] at h2
  omega

/-- The Néel state. -/
theorem exists_config (c : Fin n → Prop) [DecidablePred c] : ∃ a : Fin (2 ^ n), ∀ i : Fin n, digit a i = 1 ↔ c i := by
  obtain ⟨a, h1, h2⟩ := exists_digits (fun i => if hi : i < n then decide (c ⟨i, hi⟩) else false) n
  refine ⟨⟨a, h1⟩, fun i => ?_⟩
  have := h2 i i.2
  rw [dif_pos i.2] at this
  have e : digit a i = digit 1 0 ↔ a.testBit i = (1 : ℕ).testBit 0 := digit_eq_iff a 1 i 0
  rw [show digit 1 0 = 1 from rfl, this] at e
  refine e.trans ?_
  simp

theorem absVec_sector {k : ℕ} {w : Fin (2 ^ n) → ℂ} (h : InSector k w) (σ : Fin (2 ^ n) → ℝ) : InSector k (absVec σ w) := by
  intro a ha
  refine h a fun e => ha ?_
  simp [absVec, e]

/-- The part of a vector with `k` spins down. -/
def part (k : ℕ) (w : Fin (2 ^ n) → ℂ) : Fin (2 ^ n) → ℂ := fun a => if downs a = k then w a else 0

theorem part_sector (k : ℕ) (w : Fin (2 ^ n) → ℂ) : InSector k (part k w) := by
  intro a ha
  by_contra h
  exact ha (if_neg h)

theorem part_eigen {M : Matrix (Fin (2 ^ n)) (Fin (2 ^ n)) ℂ} (hM : ∀ a c, downs a ≠ downs c → M a c = 0) {E : ℂ}
    {w : Fin (2 ^ n) → ℂ} (hw : M *ᵥ w = E • w) (k : ℕ) : M *ᵥ part k w = E • part k w := by
  funext a
  rw [Pi.smul_apply, smul_eq_mul]
  by_cases ha : downs a = k
  · have e1 : (M *ᵥ part k w) a = (M *ᵥ w) a := by
      unfold Matrix.mulVec dotProduct
      refine Finset.sum_congr rfl fun c _ => ?_
      change M a c * (if downs c = k then w c else 0) = M a c * w c
      by_cases hc : downs c = k
      · rw [if_pos hc]
      · rw [hM a c (by rw [ha]; exact fun e => hc e.symm), zero_mul, zero_mul]
    rw [e1, hw, Pi.smul_apply, smul_eq_mul]
    unfold part
    rw [if_pos ha]
  · have e1 : (M *ᵥ part k w) a = 0 := by
      unfold Matrix.mulVec dotProduct
      refine Finset.sum_eq_zero fun c _ => ?_
      change M a c * (if downs c = k then w c else 0) = 0
      by_cases hc : downs c = k
      · rw [hM a c (by rw [hc]; exact ha), zero_mul]
      · rw [if_neg hc, mul_zero]
    rw [e1]
    unfold part
    rw [if_neg ha, mul_zero]

theorem eigen_commute {N : ℕ} {M X : Matrix (Fin N) (Fin N) ℂ} (h : Commute M X) {E : ℂ} {w : Fin N → ℂ}
    (hw : M *ᵥ w = E • w) : M *ᵥ (X *ᵥ w) = E • (X *ᵥ w) := by
  rw [Matrix.mulVec_mulVec, h.eq, ← Matrix.mulVec_mulVec, hw, Matrix.mulVec_smul]

theorem pairSum_total (J : ℝ) (l : List (Fin n × Fin n)) {a : SpinOtype} (ha : a ∈ [SpinOtype.x, .y, .z]) :
    Commute (pairSum J l) (totalSpinOp n a) := by
  refine list_commute _ fun M hM => ?_
  obtain ⟨b, hb, rfl⟩ := List.mem_map.1 hM
  refine Commute.smul_left ?_ _
  have := heis_siteOp n a ha b.1 b.2 b.1.2 b.2.2
  rw [totalSpin_eq] at this
  exact this.symm

theorem total_ladder : totalSpinOp n .p = totalSpinOp n .x + Complex.I • totalSpinOp n .y ∧
    totalSpinOp n .m = totalSpinOp n .x - Complex.I • totalSpinOp n .y := by
  unfold totalSpinOp
  constructor
  · rw [Finset.smul_sum, ← Finset.sum_add_distrib]
    exact Finset.sum_congr rfl fun i _ => by rw [Demo.spinHalf_p, siteOp_add, siteOp_smul]
  · rw [Finset.smul_sum, ← Finset.sum_sub_distrib]
    exact Finset.sum_congr rfl fun i _ => by rw [Demo.spinHalf_m, siteOp_sub, siteOp_smul]

theorem pairSum_ladder (J : ℝ) (l : List (Fin n × Fin n)) :
    Commute (pairSum J l) (totalSpinOp n .p) ∧ Commute (pairSum J l) (totalSpinOp n .m) := by
  have hx := pairSum_total J l (a := .x) (by simp)
  have hy := pairSum_total J l (a := .y) (by simp)
  rw [total_ladder.1, total_ladder.2]
  exact ⟨hx.add_right (hy.smul_right _), hx.sub_right (hy.smul_right _)⟩

/-- The ground state: unique, in the sector with as many spins up as down, with the signs of Marshall, and without
total spin. -/
theorem marshall (hJ : 0 < J) (h : Halves A l p) (hH : (pairSum J l).IsHermitian) :
    ∃ E : ℝ, IsLowest (pairSum J l) E ∧ ∃ x : Fin (2 ^ n) → ℝ, (∀ a, 0 ≤ x a) ∧ (∀ a, 0 < x a ↔ 2 * downs a = n) ∧
      pairSum J l *ᵥ (fun a => ((sgn A a * x a : ℝ) : ℂ)) = (E : ℂ) • (fun a => ((sgn A a * x a : ℝ) : ℂ)) ∧
      (∀ w, pairSum J l *ᵥ w = (E : ℂ) • w → ∃ z : ℂ, w = z • (fun a => ((sgn A a * x a : ℝ) : ℂ))) ∧
      (totalSpinOp n .p *ᵥ (fun a => ((sgn A a * x a : ℝ) : ℂ)) = 0) ∧
      (totalSpinOp n .m *ᵥ (fun a => ((sgn A a * x a : ℝ) : ℂ)) = 0) ∧
      (totalSpinOp n .z *ᵥ (fun a => ((sgn A a * x a : ℝ) : ℂ)) = 0) := by
  set M := pairSum J l with hM
  have hN : 2 * (Finset.univ.filter A).card = n := h.card
  set k0 := (Finset.univ.filter A).card with hk0
  obtain ⟨E, hL, hE⟩ := exists_lowest (Nat.two_pow_pos n) hH
  have hoff : OffSigns M (sgn A) (exchanges J l) := pairSum_off hJ.le fun b hb => ⟨h.ne hb, h.alternate b hb⟩
  have hsec : ∀ a c, downs a ≠ downs c → M a c = 0 := fun a c hac => pairSum_sectors J (fun b hb => h.ne hb) hac
  obtain ⟨cp, cm⟩ := pairSum_ladder J l
  -- the eigenspace, sector by sector
  let V : ℕ → (Fin (2 ^ n) → ℂ) → Prop := fun k w => M *ᵥ w = (E : ℂ) • w ∧ InSector k w
  have dn : ∀ k w, V k w → V (k + 1) (totalSpinOp n .m *ᵥ w) := fun k w hw => ⟨eigen_commute cm hw.1, hw.2.lower⟩
  have up : ∀ k w, V (k + 1) w → V k (totalSpinOp n .p *ᵥ w) := fun k w hw => ⟨eigen_commute cp hw.1, hw.2.raise⟩
  have climb : ∀ d k w, V k w → w ≠ 0 → k + d ≤ k0 → ∃ w', V (k + d) w' ∧ w' ≠ 0 := by
    intro d
    induction d with
    | zero => exact fun k w hw h0 _ => ⟨w, hw, h0⟩
    | succ d ih =>
      intro k w hw h0 hd
      obtain ⟨w', h1, h2⟩ := ih k w hw h0 (by omega)
      exact ⟨_, dn _ _ h1, lower_ne h1.2 (by omega) h2⟩
  have fall : ∀ d k w, V (k + d) w → w ≠ 0 → k0 ≤ k → ∃ w', V k w' ∧ w' ≠ 0 := by
    intro d
    induction d with
    | zero => exact fun k w hw h0 _ => ⟨w, hw, h0⟩
    | succ d ih =>
      intro k w hw h0 hd
      exact ih k _ (up (k + d) w hw) (raise_ne hw.2 (by omega) h0) hd
  have nz : ∀ w, V k0 w → ∀ a, downs a = k0 → w a = 0 → w = 0 := by
    intro w hw a hak ha
    have hs := abs_eigen hH hoff hE hw.1
    funext b
    by_cases hb : downs b = k0
    · have := states_connected hJ (fun b hb => h.ne hb) h.linked (hak.trans hb.symm)
      clear hb
      induction this with
      | refl => exact ha
      | tail _ hst ih => exact zero_spreads hoff hs ih hst.1 hst.2
    · by_contra h0
      exact hb (hw.2 b h0)
  -- an eigenvector in the middle
  obtain ⟨⟨w0, hw0, he0⟩, -⟩ := id hL
  obtain ⟨u0, hu0, hu00⟩ : ∃ w, V k0 w ∧ w ≠ 0 := by
    obtain ⟨a, ha⟩ : ∃ a, w0 a ≠ 0 := by
      by_contra hc
      push Not at hc
      exact hw0 (funext hc)
    have hv : V (downs a) (part (downs a) w0) := ⟨part_eigen hsec he0 _, part_sector _ _⟩
    have hv0 : part (downs a) w0 ≠ 0 := fun e => ha (by
      have := congrFun e a
      unfold part at this
      rwa [if_pos rfl] at this)
    rcases le_total (downs a) k0 with hle | hle
    · have := climb (k0 - downs a) _ _ hv hv0 (by omega)
      rwa [Nat.add_sub_cancel' hle] at this
    · exact fall (downs a - k0) k0 _ (by rwa [Nat.add_sub_cancel' hle]) hv0 le_rfl
  have hu : V k0 (absVec (sgn A) u0) := ⟨abs_eigen hH hoff hE hu0.1, absVec_sector hu0.2 _⟩
  set u := absVec (sgn A) u0 with hudef
  have hx : ∀ a, 0 < ‖u0 a‖ ↔ 2 * downs a = n := by
    intro a
    rw [norm_pos_iff]
    constructor
    · intro ha
      rw [hu0.2 a ha, hN]
    · intro ha h0
      exact hu00 (nz u0 hu0 a (by omega) h0)
  obtain ⟨a0, ha0⟩ := exists_config A
  have hd0 : downs a0 = k0 := by
    unfold downs
    rw [hk0]
    congr 1
    ext i
    simp only [Finset.mem_filter, Finset.mem_univ, true_and, ha0]
  have hsne : ∀ a, sgn A a ≠ 0 := fun a e => by
    have := sgn_sq (A := A) a
    rw [e] at this
    norm_num at this
  have hua0 : u a0 ≠ 0 := by
    rw [hudef]
    unfold absVec
    rw [Complex.ofReal_ne_zero]
    exact mul_ne_zero (hsne a0) ((hx a0).2 (by omega)).ne'
  have uniq : ∀ w, V k0 w → ∃ z : ℂ, w = z • u := by
    intro w hw
    refine ⟨w a0 / u a0, ?_⟩
    have hv : V k0 (w - (w a0 / u a0) • u) := by
      refine ⟨by rw [Matrix.mulVec_sub, Matrix.mulVec_smul, hw.1, hu.1, smul_sub, smul_comm], fun a ha => ?_⟩
      by_cases hwa : w a = 0
      · refine hu.2 a fun e => ha ?_
        rw [Pi.sub_apply, Pi.smul_apply, hwa, e, smul_zero, sub_zero]
      · exact hw.2 a hwa
    have := nz _ hv a0 hd0 (by rw [Pi.sub_apply, Pi.smul_apply, smul_eq_mul, div_mul_cancel₀ _ hua0, sub_self])
    exact sub_eq_zero.1 this
  -- no total spin: compare with the singlet of pairs
  have hpu : totalSpinOp n .p *ᵥ u = 0 := by
    rcases Nat.eq_zero_or_pos k0 with hz | hpos
    · funext a
      rw [raise_apply, Pi.zero_apply]
      refine Finset.sum_eq_zero fun j _ => ?_
      have := j.2
      omega
    · obtain ⟨k, hk⟩ : ∃ k, k0 = k + 1 := ⟨k0 - 1, by omega⟩
      have hup : V k (totalSpinOp n .p *ᵥ u) := up k u (by rw [← hk]; exact hu)
      obtain ⟨z, hz⟩ := uniq _ (by have := dn _ _ hup; rwa [← hk] at this)
      have hov : star (paired A p) ⬝ᵥ u ≠ 0 := by
        have e : star (paired A p) ⬝ᵥ u = ((∑ a : Fin (2 ^ n), if ∀ i, digit a (p i) ≠ digit a i then ‖u0 a‖ else 0 : ℝ) : ℂ) := by
          rw [Complex.ofReal_sum]
          refine Finset.sum_congr rfl fun a _ => ?_
          rw [Pi.star_apply, hudef]
          unfold paired absVec
          by_cases hc : ∀ i, digit a (p i) ≠ digit a i
          · rw [if_pos hc, if_pos hc, Complex.star_def, Complex.conj_ofReal, ← Complex.ofReal_mul, ← mul_assoc, sgn_sq, one_mul]
          · rw [if_neg hc, if_neg hc, star_zero, zero_mul, Complex.ofReal_zero]
        rw [e, Complex.ofReal_ne_zero]
        refine ne_of_gt (lt_of_lt_of_le ((hx a0).2 (by omega)) ?_)
        have hc : ∀ i, digit a0 (p i) ≠ digit a0 i := by
          intro i e
          have h1 := ha0 i
          have h2 := ha0 (p i)
          rw [e, h1, h.other] at h2
          tauto
        have := Finset.single_le_sum (f := fun a : Fin (2 ^ n) => if ∀ i, digit a (p i) ≠ digit a i then ‖u0 a‖ else 0)
          (fun a _ => by split <;> positivity) (Finset.mem_univ a0)
        rwa [if_pos hc] at this
      have hzz : z = 0 := by
        have h1 : star (paired A p) ⬝ᵥ totalSpinOp n .m *ᵥ totalSpinOp n .p *ᵥ u = 0 := by
          rw [← raise_adj, ← star_mulVec_dot, raise_paired h.pair h.other, star_zero, zero_dotProduct]
        rw [hz, dotProduct_smul, smul_eq_mul] at h1
        exact (mul_eq_zero.1 h1).resolve_right hov
      rw [hzz, zero_smul] at hz
      refine norm2_eq_zero ?_
      have h2 : ((norm2 (totalSpinOp n .p *ᵥ u) : ℝ) : ℂ) = 0 := by
        rw [← star_dot, star_mulVec_dot, raise_adj, hz, dotProduct_zero]
      exact_mod_cast h2
  have hmu : totalSpinOp n .m *ᵥ u = 0 := by
    refine norm2_eq_zero ?_
    rw [ladder_norm hu.2, hpu]
    have h4 : norm2 (0 : Fin (2 ^ n) → ℂ) = 0 := by simp [norm2]
    have h5 : (n : ℝ) - 2 * k0 = 0 := by
      have : (2 * k0 : ℝ) = n := by exact_mod_cast hN
      linarith
    rw [h4, h5, zero_mul, add_zero]
  have hzu : totalSpinOp n .z *ᵥ u = 0 := by
    funext a
    rw [sz_apply, Pi.zero_apply]
    by_cases ha : u a = 0
    · rw [ha, mul_zero]
    · rw [hu.2 a ha]
      have h5 : (n : ℂ) / 2 - k0 = 0 := by
        have : (2 * k0 : ℂ) = n := by exact_mod_cast hN
        rw [← this]; ring
      rw [h5, zero_mul]
  -- other sectors are empty
  have low : ∀ k, k < k0 → ∀ w, V k w → w = 0 := by
    intro k hk w hw
    by_contra h0
    obtain ⟨w', h1, h2⟩ := climb (k0 - 1 - k) k w hw h0 (by omega)
    rw [show k + (k0 - 1 - k) = k0 - 1 by omega] at h1
    have h3 := dn _ _ h1
    rw [show k0 - 1 + 1 = k0 by omega] at h3
    obtain ⟨z, hz⟩ := uniq _ h3
    refine lower_ne h1.2 (by omega) h2 (norm2_eq_zero ?_)
    have h4 : ((norm2 (totalSpinOp n .m *ᵥ w') : ℝ) : ℂ) = 0 := by
      rw [← star_dot, star_mulVec_dot, lower_adj, hz, Matrix.mulVec_smul, hpu, smul_zero, dotProduct_zero]
    exact_mod_cast h4
  have high : ∀ k, k0 < k → ∀ w, V k w → w = 0 := by
    intro k hk w hw
    by_contra h0
    obtain ⟨w', h1, h2⟩ := fall (k - (k0 + 1)) (k0 + 1) w (by rwa [show k0 + 1 + (k - (k0 + 1)) = k by omega]) h0 (by omega)
    obtain ⟨z, hz⟩ := uniq _ (up _ _ h1)
    refine raise_ne h1.2 (by omega) h2 (norm2_eq_zero ?_)
    have h4 : ((norm2 (totalSpinOp n .p *ᵥ w') : ℝ) : ℂ) = 0 := by
      rw [← star_dot, star_mulVec_dot, raise_adj, hz, Matrix.mulVec_smul, hmu, smul_zero, dotProduct_zero]
    exact_mod_cast h4
  refine ⟨E, hL, fun a => ‖u0 a‖, fun a => norm_nonneg _, hx, hu.1, fun w hw => ?_, hpu, hmu, hzu⟩
  have hv : ∀ k, V k (part k w) := fun k => ⟨part_eigen hsec hw k, part_sector k w⟩
  obtain ⟨z, hz⟩ := uniq _ (hv k0)
  refine ⟨z, hz.symm.trans ?_ |>.symm⟩
  funext a
  by_cases ha : downs a = k0
  · exact if_pos ha
  · have h0 : part (downs a) w = 0 := by
      rcases lt_or_gt_of_ne ha with hlt | hgt
      · exact low _ hlt _ (hv _)
      · exact high _ hgt _ (hv _)
    have h1 := congrFun h0 a
    unfold part at h1 ⊢
    rw [if_pos rfl] at h1
    rw [if_neg ha, h1]
    rfl

end Verif.LDB
