import Verif.Props.LatticeNeighbor
/-!
# C65: does `bonds` find every bond of the infinite lattice?

In general no: the nth neighbour distance is rounded, and when it is rounded down and no copy of the
cluster on the first shell is closer, the scope search stops at once (`C65_violated_rounding`).  For
clusters that are small compared with their cell every bond not longer than the rounded distance is
found.
-/

namespace Verif.Latt

variable {n m k : ℕ}

/-- Distances decrease from shell to shell, down to the first. -/
theorem shift_step {points : Fin n → Pt m} {v : Fin k → Pt m} (hv : CompactCluster points v)
    (i j : Fin n) (c : Fin k → ℤ) (t : ℤ) (ht : 2 ≤ t) (hc : OnShell c t) :
    ∃ d, OnShell d (t - 1) ∧ ndist (points i + comb v d) (points j) ≤
      ndist (points i + comb v c) (points j) := by
  classical
  let e : Fin k → ℤ := fun i => if c i = t then 1 else if c i = -t then -1 else 0
  refine ⟨c - e, ⟨fun i => ?_, ?_⟩, ?_⟩
  · have := abs_le.1 (hc.1 i)
    simp only [Pi.sub_apply, e]
    rw [abs_le]
    split_ifs <;> omega
  · obtain ⟨i, hi⟩ := hc.2
    refine ⟨i, ?_⟩
    simp only [Pi.sub_apply, e]
    rcases (abs_eq (by omega)).1 hi with h | h
    · rw [if_pos h, h, abs_of_nonneg]; omega
    · rw [if_neg (by omega), if_pos h, h, abs_of_nonpos] <;> omega
  · rw [ndist_eq, ndist_eq]
    refine nnorm_le_of_sq ?_
    set δ : Pt m := points i - points j with hδ
    set f : Fin k → ℤ := c + (c - e) with hf
    have key : ∑ a, (points i + comb v c - points j) a ^ 2 -
        ∑ a, (points i + comb v (c - e) - points j) a ^ 2 =
        ∑ a, comb v e a * comb v f a + 2 * ∑ a, δ a * comb v e a := by
      rw [← Finset.sum_sub_distrib, Finset.mul_sum, ← Finset.sum_add_distrib]
      refine Finset.sum_congr rfl fun a _ => ?_
      rw [hf, comb_add, comb_sub]
      simp only [Pi.add_apply, Pi.sub_apply, hδ]; ring
    have hdot : ∑ a, δ a * comb v e a = ∑ q, (e q : ℝ) * ∑ a, δ a * v q a := by
      have : ∀ a, δ a * comb v e a = ∑ q, (e q : ℝ) * (δ a * v q a) := by
        intro a; rw [comb, Finset.mul_sum]; exact Finset.sum_congr rfl fun q _ => by ring
      rw [Finset.sum_congr rfl fun a _ => this a, Finset.sum_comm]
      exact Finset.sum_congr rfl fun q _ => by rw [Finset.mul_sum]
    have hfb : ∀ j, |(f j : ℝ)| ≤ 2 * t - 1 := by
      intro j
      have := abs_le.1 (hc.1 j)
      have : |f j| ≤ 2 * t - 1 := by
        simp only [hf, Pi.add_apply, Pi.sub_apply, e]
        rw [abs_le]
        split_ifs <;> omega
      exact_mod_cast this
    have ht' : (3 : ℝ) ≤ 2 * t - 1 := by
      have : (2 : ℝ) ≤ t := by exact_mod_cast ht
      linarith
    have hpos : 0 ≤ ∑ a, comb v e a * comb v f a + 2 * ∑ a, δ a * comb v e a := by
      rw [sum_comb_mul, hdot, Finset.mul_sum, ← Finset.sum_add_distrib]
      refine Finset.sum_nonneg fun q _ => ?_
      by_cases h0 : e q = 0
      · simp [h0]
      · have he : (e q : ℝ) * f q = 2 * t - 1 ∧ |(e q : ℝ)| = 1 := by
          simp only [hf, Pi.add_apply, Pi.sub_apply, e] at h0 ⊢
          split_ifs at h0 ⊢ with h1 h2
          · rw [h1]; push_cast; constructor
            · ring
            · simp
          · rw [h2]; push_cast; constructor
            · ring
            · simp
          · exact absurd rfl h0
        rw [← Finset.add_sum_erase _ _ (Finset.mem_univ q), mul_add]
        have h1 : (e q : ℝ) * (gram v q q * f q) = gram v q q * (2 * t - 1) := by
          rw [← he.1]; ring
        have h2 : |(e q : ℝ) * ∑ j ∈ Finset.univ.erase q, gram v q j * f j| ≤
            (∑ j ∈ Finset.univ.erase q, |gram v q j|) * (2 * t - 1) := by
          rw [abs_mul, he.2, one_mul, Finset.sum_mul]
          refine (Finset.abs_sum_le_sum_abs _ _).trans (Finset.sum_le_sum fun j _ => ?_)
          rw [abs_mul]
          exact mul_le_mul_of_nonneg_left (hfb j) (abs_nonneg _)
        have h3 : |(e q : ℝ) * ∑ a, δ a * v q a| = |∑ a, δ a * v q a| := by
          rw [abs_mul, he.2, one_mul]
        have h4 := hv i j q
        have h5 : |∑ a, δ a * v q a| = |∑ a, (points i a - points j a) * v q a| := rfl
        rw [← h5] at h4
        have h6 := abs_le.1 h2
        have h7 := neg_abs_le ((e q : ℝ) * ∑ a, δ a * v q a)
        rw [h3] at h7
        have h8 : 0 ≤ gram v q q - ∑ r ∈ Finset.univ.erase q, |gram v q r| := by
          have := abs_nonneg (∑ a, δ a * v q a); linarith
        have h9 := mul_le_mul_of_nonneg_left ht' h8
        rw [h1]; nlinarith [h6.1]
    linarith

/-- Outside the scope every copy of the cluster is farther away than the reference distance. -/
theorem scope_complete {points : Fin n → Pt m} {v : Fin k → Pt m} (hv : CompactCluster points v)
    {ref : ℝ} {s : ℤ} (hs : IsScope points v ref s) (hs0 : 0 ≤ s) (c : Fin k → ℤ) (i j : Fin n)
    (h : ndist (points i + comb v c) (points j) ≤ ref) : ∀ q, |c q| ≤ s := by
  by_contra hcon
  push Not at hcon
  obtain ⟨q0, hq0⟩ := hcon
  obtain ⟨q, hq⟩ : ∃ q, ∀ q', |c q'| ≤ |c q| := by
    have : Nonempty (Fin k) := ⟨q0⟩
    exact Finite.exists_max fun q => |c q|
  have hcq : OnShell c |c q| := ⟨hq, q, rfl⟩
  have hsq : s < |c q| := lt_of_lt_of_le hq0 (hq q0)
  obtain ⟨p, hp⟩ : ∃ p : ℕ, |c q| = s + 1 + p := ⟨(|c q| - s - 1).toNat, by omega⟩
  rw [hp] at hcq
  clear hsq hp hq hq0
  induction p generalizing c with
  | zero => exact absurd (hs.far c (by simpa using hcq) i j) (not_lt.2 h)
  | succ p ih =>
    obtain ⟨d, hd, hdc⟩ := shift_step hv i j c _ (by push_cast; omega) hcq
    exact ih d (hdc.trans h) (by convert hd using 1; push_cast; ring)

/-- **C65 (small clusters).** Whenever `bonds(nth)` returns, for a cluster that is small compared with
its cell: every bond of the infinite lattice between a cluster point `i` and the copy of `j` translated
by `c ≠ 0`, whose length is in the requested range and at most the (rounded) nth neighbour distance, is
represented in `inter` by exactly one of `(i, j, c)` and `(j, i, -c)`. -/
theorem C65_bonds_complete_partial (order : List (Fin k → ℤ) → List (Fin k → ℤ))
    (horder : ∀ l, (order l).Perm l)
    (porder : ∀ N : ℕ, List (Fin N × Fin N) → List (Fin N × Fin N))
    (hporder : ∀ N l, (porder N l).Perm l) {prec : ℕ} {L L' : Lat n m k} {nth : ℤ} {only : Bool}
    {intra inter : List (LBond m)} (hv : CompactCluster L.points L.vectors)
    (h : bonds order porder prec L nth only false = some (L', .ok (intra, some inter))) :
    ∃ hi P H, (neighborDistance order prec L nth).2 = .ok hi ∧
      LengthRange order prec L nth only hi P ∧
      intra.Perm (intraBonds L.points P) ∧
      inter.Perm (interBonds L.points L.vectors H P fun c j => L.points j + comb L.vectors c) ∧
      H.Nodup ∧
      (0 ≤ hi → ∀ i j, ∀ c : Fin k → ℤ, c ≠ 0 →
        ndist (L.points i + comb L.vectors c) (L.points j) ≤ hi →
        (c ∈ H ∧ -c ∉ H) ∨ (c ∉ H ∧ -c ∈ H)) := by
  obtain ⟨hi, P, s, H, h1, h2, h3, h4, h5, h6, -⟩ :=
    C51_bonds_exact order horder porder hporder h
  refine ⟨hi, P, H, h1, h2, h5, by simpa using h6, h3.nodup, fun hhi i j c hc hd => ?_⟩
  refine h3.half c hc (scope_complete hv h4 ?_ c i j hd)
  by_contra hneg
  have hs : s = -1 := by have := h4.ge; omega
  have hk : ∃ q : Fin k, c q ≠ 0 := Function.ne_iff.1 hc
  obtain ⟨q, _⟩ := hk
  have := h4.far 0 ⟨fun i => by simp [hs], q, by simp [hs]⟩ i i
  rw [comb_zero, add_zero, ndist_self] at this
  linarith

/-- The square lattice meets the hypotheses of C51 and C65: `bonds(1)` returns, and its cluster of one
point is small. -/
example : ∃ L L' intra inter, init 4 sqPoints sqVectors = .ok L ∧
    CompactCluster L.points L.vectors ∧
    bonds id (fun _ => id) 4 L 1 true false = some (L', .ok (intra, some inter)) := by
  obtain ⟨L, h⟩ := sq_accepted
  obtain ⟨h1, h2, _⟩ := C46_reciprocal_dual h
  have g01 : ∀ i j, i ≠ j → gram sqVectors i j = 0 := by
    intro i j hij
    fin_cases i <;> fin_cases j <;> simp [gram, sqVectors, Fin.sum_univ_two] at hij ⊢
  have gii : ∀ i, gram sqVectors i i = 1 := by
    intro i; fin_cases i <;> simp [gram, sqVectors, Fin.sum_univ_two]
  obtain ⟨z, hz, _, _⟩ := C52_single_point_fresh_partial id (fun l => List.Perm.refl l) h 0
    (by simp [nnorm, sqVectors, tol, Fin.sum_univ_two]; norm_num)
    (notOblique_of_orthogonal g01 0 fun i => by rw [gii, gii]) 1 le_rfl
  have hi : Inequivalent 4 sqPoints sqVectors := fun i j hij => absurd (Subsingleton.elim i j) hij
  have hw : WideAngle sqVectors := by simp [WideAngle, gram, sqVectors, Fin.sum_univ_two]
  obtain ⟨L', intra, inter, hb⟩ := C51_bonds_succeed id (fun l => List.Perm.refl l) (fun _ => id) h
    rfl rfl (by norm_num) le_rfl (fun i c => C49_finds_wideAngle_partial h hi hw i c) le_rfl true false hz
  refine ⟨L, L', intra, inter, h, ?_, hb⟩
  rw [h1, h2]
  intro i j q
  rw [Subsingleton.elim j i, Finset.sum_eq_zero (fun a _ => by rw [sub_self, zero_mul]), gii,
    Finset.sum_eq_zero fun r hr => by rw [g01 q r (Finset.mem_erase.1 hr).1.symm, abs_zero]]
  norm_num

/-! ### The violation -/

/-- The square lattice of spacing √2, rotated by 45 degrees. -/
def diagVectors : Fin 2 → Pt 2 := ![![1, 1], ![1, -1]]

theorem diag_accepted : ∃ L, init 4 sqPoints diagVectors = .ok L := by
  rw [C46_accepted_iff]
  refine ⟨by norm_num, le_rfl, ?_, ?_, ?_⟩
  · intro i j hij
    have hi : i = 0 := by omega
    have hj : j = 1 := by omega
    subst hi; subst hj
    refine le_ndist_two ?_
    simp [diagVectors, tol]; norm_num
  · intro i j hij; omega
  · rw [Fintype.linearIndependent_iff]
    intro g hg i
    have h0 := congrFun hg 0
    have h1 := congrFun hg 1
    simp [diagVectors, Fin.sum_univ_two] at h0 h1
    fin_cases i
    · show g 0 = 0; linarith
    · show g 1 = 0; linarith

theorem diag_norm (c : Fin 2 → ℤ) : nnorm (comb diagVectors c) ^ 2 = 2 * (c 0 ^ 2 + c 1 ^ 2) := by
  rw [nnorm_sq, comb_two]
  simp [gram, diagVectors, Fin.sum_univ_two]; ring

theorem diag_norm_ge (c : Fin 2 → ℤ) (hc : c ≠ 0) : Real.sqrt 2 ≤ nnorm (comb diagVectors c) := by
  refine Real.sqrt_le_iff.2 ⟨nnorm_nonneg _, ?_⟩
  rw [diag_norm]
  have : 1 ≤ c 0 ^ 2 + c 1 ^ 2 := by
    by_contra hcon
    have h0 := sq_nonneg (c 0)
    have h1 := sq_nonneg (c 1)
    have e0 : c 0 = 0 := by have : c 0 ^ 2 = 0 := by omega
                            exact pow_eq_zero_iff (two_ne_zero) |>.1 this
    have e1 : c 1 = 0 := by have : c 1 ^ 2 = 0 := by omega
                            exact pow_eq_zero_iff (two_ne_zero) |>.1 this
    exact hc (by funext i; fin_cases i <;> simpa)
  have : (1 : ℝ) ≤ (c 0 : ℝ) ^ 2 + (c 1 : ℝ) ^ 2 := by exact_mod_cast this
  linarith

/-- **C65 is violated.** For the square lattice of spacing √2 the first neighbour distance is 1.4142
(rounded down), and `bonds(1)` returns two empty lists, although the site at (1, 1) is a copy of the
cluster point at the distance √2, which differs from 1.4142 by less than the tolerance. -/
theorem C65_violated_rounding (order : List (Fin 2 → ℤ) → List (Fin 2 → ℤ))
    (horder : ∀ l, (order l).Perm l)
    (porder : ∀ N : ℕ, List (Fin N × Fin N) → List (Fin N × Fin N))
    (hporder : ∀ N l, (porder N l).Perm l) :
    ∃ L, init 4 sqPoints diagVectors = .ok L ∧
      (neighborDistance order 4 L 1).2 = .ok (14142 / 10 ^ 4) ∧
      ndist (sqPoints 0 + comb diagVectors ![1, 0]) (sqPoints 0) ≤ 14142 / 10 ^ 4 + tol 4 ∧
      ∃ L', bonds order porder 4 L 1 true false = some (L', .ok ([], some [])) := by
  obtain ⟨L, hL⟩ := diag_accepted
  obtain ⟨e1, e2, e3, _⟩ := C46_reciprocal_dual hL
  have s2 : Real.sqrt 2 ^ 2 = 2 := Real.sq_sqrt (by norm_num)
  have s0 : 0 ≤ Real.sqrt 2 := Real.sqrt_nonneg 2
  have slo : (14142 / 10000 : ℝ) < Real.sqrt 2 := Real.lt_sqrt_of_sq_lt (by norm_num)
  have shi : Real.sqrt 2 < 14143 / 10000 := by
    rw [Real.sqrt_lt' (by norm_num)]; norm_num
  have shi' : Real.sqrt 2 < 141422 / 100000 := by
    rw [Real.sqrt_lt' (by norm_num)]; norm_num
  have hr : rint (Real.sqrt 2 * 10 ^ 4) = 14142 := by
    have h1 : ⌊Real.sqrt 2 * 10 ^ 4⌋ = 14142 := by
      rw [Int.floor_eq_iff]; push_cast; constructor <;> linarith
    unfold rint
    rw [h1, if_pos (by push_cast; linarith)]
  have hgram0 : ∀ i j, i ≠ j → gram diagVectors i j = 0 := by
    intro i j hij
    fin_cases i <;> fin_cases j <;> simp [gram, diagVectors, Fin.sum_univ_two] at hij ⊢
  have hgram : ∀ i, gram diagVectors i i = 2 := by
    intro i; fin_cases i <;> simp [gram, diagVectors, Fin.sum_univ_two] <;> norm_num
  have hv0 : nnorm (diagVectors 0) = Real.sqrt 2 := by
    unfold nnorm; rw [Fin.sum_univ_two]; simp [diagVectors]; norm_num
  have hone : nnorm (comb diagVectors ![1, 0]) = Real.sqrt 2 := by
    have := diag_norm ![1, 0]
    simp at this
    rw [← this, Real.sqrt_sq (nnorm_nonneg _)]
  -- the first neighbour distance
  have hnd : (neighborDistance order 4 L 1).2 = .ok (14142 / 10 ^ 4) := by
    obtain ⟨z, hz, hzr, hcard⟩ := C52_single_point_fresh_partial order horder hL 0
      (by rw [hv0]; unfold tol; linarith)
      (notOblique_of_orthogonal hgram0 0 fun i => by rw [hgram, hgram]) 1 le_rfl
    have hmin : ∀ y, RoundedDist 4 sqPoints diagVectors y → 14142 ≤ y := by
      intro y hy
      obtain ⟨c, hc, rfl⟩ := rounded_single.1 hy
      rw [← hr]
      exact rint_mono (mul_le_mul_of_nonneg_right (diag_norm_ge c hc) (by norm_num))
    have hmem : RoundedDist 4 sqPoints diagVectors 14142 :=
      rounded_single.2 ⟨![1, 0], by intro h; have := congrFun h 0; simp at this, by rw [hone, hr]⟩
    have hz' : z = 14142 := by
      have hc : {y | RoundedDist 4 sqPoints diagVectors y ∧ y ≤ z}.ncard = 1 := by
        exact_mod_cast hcard
      obtain ⟨a, ha⟩ := Set.ncard_eq_one.1 hc
      have h1 : z ∈ ({a} : Set ℤ) := ha ▸ ⟨hzr, le_rfl⟩
      have h2 : (14142 : ℤ) ∈ ({a} : Set ℤ) := ha ▸ ⟨hmem, hmin z hzr⟩
      rw [Set.mem_singleton_iff] at h1 h2
      rw [h1, ← h2]
    rw [hz, hz']; norm_num
  refine ⟨L, hL, hnd, ?_, ?_⟩
  · rw [ndist_eq, add_sub_cancel_left, hone]
    unfold tol; linarith
  · have hi : Inequivalent 4 sqPoints diagVectors := fun i j hij => absurd (Subsingleton.elim i j) hij
    have hw : WideAngle diagVectors := by
      unfold WideAngle; rw [hgram0 0 1 (by norm_num), hgram, hgram]; norm_num
    obtain ⟨L', intra, inter, hb⟩ := C51_bonds_succeed order horder porder hL rfl rfl (by norm_num)
      le_rfl (fun i c => C49_finds_wideAngle_partial hL hi hw i c) le_rfl true false hnd
    obtain ⟨d, P, s, H, h1, h2, h3, h4, h5, h6, -⟩ :=
      C51_bonds_exact order horder porder hporder hb
    rw [hnd] at h1
    injection h1 with h1
    subst h1
    rw [e1, e2] at h4 h6
    have hs : s = 0 := by
      by_contra hne
      rcases lt_or_gt_of_ne hne with hlt | hgt
      · have hs : s = -1 := by have := h4.ge; omega
        have := h4.far 0 ⟨fun i => by simp [hs], 0, by simp [hs]⟩ 0 0
        rw [comb_zero, add_zero, ndist_self] at this
        norm_num at this
      · obtain ⟨c, hc, i, j, hij⟩ := h4.first 0 (by norm_num) hgt
        have hc0 : c ≠ 0 := by
          rintro rfl
          obtain ⟨_, q, hq⟩ := hc
          simp at hq
        have := diag_norm_ge c hc0
        rw [Subsingleton.elim j i, ndist_eq, add_sub_cancel_left] at hij
        linarith
    have hH : H = [] := by
      rcases H with _ | ⟨c, H⟩
      · rfl
      · obtain ⟨hc, hb⟩ := h3.inBox c List.mem_cons_self
        exact absurd (funext fun i => by have := hb i; rw [hs] at this; simpa using this) hc
    rw [hH] at h6
    have hinter : inter = [] := by
      exact List.Perm.eq_nil (h6.trans (by rw [show interBonds sqPoints diagVectors [] P _ = [] from rfl]))
    have hintra : intra = [] := by
      refine List.Perm.eq_nil (h5.trans ?_)
      have : intraBonds L.points P = [] := by
        unfold intraBonds
        rw [List.map_eq_nil_iff, List.filter_eq_nil_iff]
        rintro ⟨i, j⟩ _
        simp only [decide_eq_true_iff, not_and]
        intro hij; omega
      rw [this]
    rw [hb, hintra, hinter]
    exact ⟨_, rfl⟩

end Verif.Latt
