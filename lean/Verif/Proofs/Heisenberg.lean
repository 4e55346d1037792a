import Verif.Spec.Heisenberg
import Verif.Props.SpinSymmetry
import Verif.Props.Demo
import Verif.Model.DemoHeisenberg
/-!
# The Hamiltonian of the Heisenberg demos
-/

namespace Verif.Demo

open Latt LDB Spec Matrix Lanczos GF

/-- What one bond adds to `HM`. -/
noncomputable def bondTerm (n : ℕ) (J : ℂ) (i j : ℕ) : Matrix (Fin (2 ^ n)) (Fin (2 ^ n)) ℂ :=
  (J / 2) • (siteOp n i (spinHalf .z) * siteOp n j (spinHalf .z)) +
    (J / 2) • (siteOp n i (spinHalf .p) * siteOp n j (spinHalf .m))

theorem spinHalf_p : spinHalf .p = spinHalf .x + Complex.I • spinHalf .y := by
  ext r c
  fin_cases r <;> fin_cases c <;> simp [spinHalf] <;> ring_nf <;> simp <;> norm_num

theorem spinHalf_m : spinHalf .m = spinHalf .x - Complex.I • spinHalf .y := by
  ext r c
  fin_cases r <;> fin_cases c <;> simp [spinHalf] <;> ring_nf <;> simp <;> norm_num

theorem spinHalf_adj : (spinHalf .p)ᴴ = spinHalf .m ∧ (spinHalf .m)ᴴ = spinHalf .p ∧ (spinHalf .x)ᴴ = spinHalf .x ∧
    (spinHalf .y)ᴴ = spinHalf .y ∧ (spinHalf .z)ᴴ = spinHalf .z := by
  refine ⟨?_, ?_, ?_, ?_, ?_⟩ <;> ext r c <;> fin_cases r <;> fin_cases c <;> simp [spinHalf]

theorem bondTerm_adj {n i j : ℕ} (hi : i < n) (hj : j < n) (hij : i ≠ j) (J : ℝ) :
    bondTerm n J i j + (bondTerm n J i j)ᴴ = (J : ℂ) • spinDot n i j := by
  obtain ⟨a1, a2, a3, a4, a5⟩ := spinHalf_adj
  have hs : star ((J : ℂ) / 2) = (J : ℂ) / 2 := by
    rw [Complex.star_def, map_div₀, Complex.conj_ofReal, map_ofNat]
  unfold bondTerm spinDot
  rw [conjTranspose_add, conjTranspose_smul, conjTranspose_smul, conjTranspose_mul, conjTranspose_mul, hs]
  simp only [siteOp_conjTranspose, a1, a2, a5]
  rw [(siteOp_comm n j i hj hi hij.symm (spinHalf .z) (spinHalf .z)).eq,
    (siteOp_comm n j i hj hi hij.symm (spinHalf .p) (spinHalf .m)).eq, spinHalf_p, spinHalf_m]
  simp only [siteOp_add, siteOp_sub, siteOp_smul]
  simp only [mul_add, add_mul, mul_sub, sub_mul, smul_mul_assoc, mul_smul_comm, smul_smul, smul_add, smul_sub]
  generalize siteOp n i (spinHalf .x) * siteOp n j (spinHalf .x) = XX
  generalize siteOp n i (spinHalf .y) * siteOp n j (spinHalf .y) = YY
  generalize siteOp n i (spinHalf .z) * siteOp n j (spinHalf .z) = ZZ
  generalize siteOp n i (spinHalf .x) * siteOp n j (spinHalf .y) = XY
  generalize siteOp n i (spinHalf .y) * siteOp n j (spinHalf .x) = YX
  ext r c
  simp only [Matrix.add_apply, Matrix.sub_apply, Matrix.smul_apply, smul_eq_mul]
  have hI : Complex.I * Complex.I = -1 := Complex.I_mul_I
  linear_combination (-(J : ℂ) * YY r c) * hI

theorem spinDot_comm {n i j : ℕ} (hi : i < n) (hj : j < n) : spinDot n i j = spinDot n j i := by
  by_cases hij : i = j
  · rw [hij]
  · unfold spinDot
    rw [(siteOp_comm n j i hj hi (Ne.symm hij) (spinHalf .x) (spinHalf .x)).eq,
      (siteOp_comm n j i hj hi (Ne.symm hij) (spinHalf .y) (spinHalf .y)).eq,
      (siteOp_comm n j i hj hi (Ne.symm hij) (spinHalf .z) (spinHalf .z)).eq]

/-- The loop over the bonds. -/
theorem exchangeLoop_ok {n prec : ℕ} (hn : 1 ≤ n) {near : (Fin n → Pt 1) → Pt 1 → Option (Fin n)} {L : Lat n 1 1}
    (hidx : ∀ z : ℤ, getIndexFold near prec L ![(z : ℝ)] = some (.ok ⟨res n z, res_lt hn _⟩)) (J : ℂ)
    (bs : List (LBond 1)) (hbs : ∀ b ∈ bs, ∃ z w : ℤ, b = (![(z : ℝ)], ![(w : ℝ)])) :
    ∃ Ms, exchangeLoop near prec L n J bs = some (.ok Ms) ∧ (bs ≠ [] → Ms ≠ []) ∧
      (Ms.map fun M => M.toMatrix (2 ^ n)).sum = (bs.map fun b => bondTerm n J (res n (b.1 0)) (res n (b.2 0))).sum := by
  induction bs with
  | nil => exact ⟨[], rfl, fun h => absurd rfl h, rfl⟩
  | cons b rest ih =>
    obtain ⟨Ms, h1, -, h3⟩ := ih fun b hb => hbs b (List.mem_cons_of_mem _ hb)
    obtain ⟨z, w, rfl⟩ := hbs b List.mem_cons_self
    have key : ∀ o o' : SpinOtype, ∃ M, SpinInteraction.matrixFunction
        [(((res n z : ℕ) : ℤ), o), (((res n w : ℕ) : ℤ), o')] n (J / 2) = .ok M ∧
        M.toMatrix (2 ^ n) = (J / 2) • (siteOp n (res n z) (spinHalf o) * siteOp n (res n w) (spinHalf o')) := by
      intro o o'
      have r1 := res_lt hn (z : ℝ)
      have r2 := res_lt hn (w : ℝ)
      obtain ⟨M, hM, -, h2⟩ := (C31_interaction_matrix [(((res n z : ℕ) : ℤ), o), (((res n w : ℕ) : ℤ), o')] n (J / 2)).1
        (by omega) (by
          intro p hp
          simp only [List.mem_cons, List.not_mem_nil, or_false] at hp
          rcases hp with rfl | rfl <;> dsimp only <;> omega)
      refine ⟨M, hM, ?_⟩
      simp only [Int.toNat_natCast] at h2
      rw [h2]
      simp only [List.map_cons, List.map_nil, List.prod_cons, List.prod_nil, mul_one]
      rw [spinMat_eq (by omega), spinMat_eq (by omega)]
      simp only [Int.toNat_natCast]
    obtain ⟨A, hA, hA'⟩ := key .z .z
    obtain ⟨B, hB, hB'⟩ := key .p .m
    refine ⟨[A, B] ++ Ms, ?_, fun _ => by simp, ?_⟩
    · unfold exchangeLoop
      dsimp only
      rw [hidx z, hidx w]
      dsimp only [andThen]
      rw [hA]
      simp only [bind, Except.bind]
      rw [hB]
      dsimp only [pure, Except.pure]
      rw [h1]
    · rw [List.map_append, List.sum_append, h3]
      simp only [List.map_cons, List.map_nil, List.sum_cons, List.sum_nil, add_zero]
      rw [hA', hB']
      rfl

theorem ringHeisenberg_hermitian {n : ℕ} (hn : 2 ≤ n) (J : ℝ) : (ringHeisenberg n J).IsHermitian := by
  have hne : ∀ i < n, i ≠ (i + 1) % n := by
    intro i hi h
    rcases Nat.lt_or_ge (i + 1) n with h1 | h1
    · rw [Nat.mod_eq_of_lt h1] at h; omega
    · obtain rfl : i = n - 1 := by omega
      rw [show n - 1 + 1 = n by omega, Nat.mod_self] at h
      omega
  unfold ringHeisenberg
  rw [Finset.smul_sum]
  unfold Matrix.IsHermitian
  rw [conjTranspose_sum]
  refine Finset.sum_congr rfl fun i hi => ?_
  have hi' := Finset.mem_range.1 hi
  rw [← bondTerm_adj hi' (Nat.mod_lt _ (by omega)) (hne i hi') J, conjTranspose_add, conjTranspose_conjTranspose,
    add_comm]

theorem ringHeisenberg_su2 {n : ℕ} (hn : 1 ≤ n) (J : ℝ) {a : SpinOtype} (ha : a ∈ [SpinOtype.x, .y, .z]) :
    Commute (ringHeisenberg n J) (totalSpinOp n a) := by
  unfold ringHeisenberg
  refine Commute.smul_left ?_ _
  refine Commute.sum_left _ _ _ fun i hi => ?_
  have hi' := Finset.mem_range.1 hi
  have := heis_siteOp n a ha i ((i + 1) % n) hi' (Nat.mod_lt _ hn)
  rw [totalSpin_eq] at this
  exact this.symm

/-- The Hamiltonian the scripts build, and the lattice they keep. -/
theorem heisenbergSetup_ok {prec : ℕ} (near : ∀ n m : ℕ, (Fin n → Pt m) → Pt m → Option (Fin n))
    (hnear : ∀ n m, IsNearest (near n m)) (order : ∀ k : ℕ, List (Fin k → ℤ) → List (Fin k → ℤ))
    (horder : ∀ k l, (order k l).Perm l) (porder : ∀ N : ℕ, List (Fin N × Fin N) → List (Fin N × Fin N))
    (hporder : ∀ N l, (porder N l).Perm l) (hprec : 1 ≤ prec) {n : ℕ} (hn : 2 ≤ n) (J : ℝ) :
    ∃ L : Lat n 1 1, heisenbergSetup near order porder prec n J = some (.ok ⟨⟨n, 1, 1, L⟩, ringHeisenberg n J⟩) ∧
      (∀ i, L.points i = ![((i : ℕ) : ℝ)]) ∧ ∀ i, getIndex (near n 1) prec L (L.points i) = .ok i := by
  classical
  have hn1 : 1 ≤ n := by omega
  obtain ⟨L0, e1, e2, e3, e4, e5⟩ := chain_lat (prec := prec) hprec hn1 (n1 := 1) (n2 := 1) le_rfl le_rfl
  obtain ⟨L1, f1, f2⟩ := C84_chain_bonds (prec := prec) (order 1) (horder 1) porder hporder hprec hn1
    (n1 := 1) (n2 := 1) le_rfl le_rfl
  rw [e1] at f1
  cases f1
  obtain ⟨-, ⟨L', intra, inter, back, hb, hintra, hinter⟩, -⟩ := f2 [] 1 le_rfl
  rw [List.foldl_nil, Nat.cast_one] at hb
  obtain ⟨-, -, -, -, -, -, -, -, -, -, hpts, hvec, -⟩ := C51_bonds_exact (order 1) (horder 1) porder hporder hb
  have hcong : ∀ s, getIndex (near n 1) prec L' s = getIndex (near n 1) prec L0 s := by
    intro s; unfold getIndex; rw [hpts]
  have hidx : ∀ z : ℤ, getIndexFold (near n 1) prec L' ![(z : ℝ)] = some (.ok ⟨res n z, res_lt hn1 _⟩) := by
    intro z
    have hr : ((res n z : ℕ) : ℤ) = z % n := by
      unfold res
      rw [Int.floor_intCast]
      have := Int.emod_nonneg z (show (n : ℤ) ≠ 0 by omega)
      omega
    have := (e5 ⟨res n z, res_lt hn1 _⟩ (fun _ => z / n)).2 _ (hnear n 1)
    rw [e2, e3, comb_chain, pt_add] at this
    have h2 := Int.emod_add_mul_ediv z n
    have h3 : ((res n z : ℕ) : ℝ) + ((z / n : ℤ) : ℝ) * n = (z : ℝ) := by
      have : ((z % n + n * (z / n) : ℤ) : ℝ) = (z : ℝ) := by rw [h2]
      rw [← hr, Int.cast_add, Int.cast_mul, Int.cast_natCast, Int.cast_natCast] at this
      linarith
    dsimp only at this
    rw [h3] at this
    rw [← this]
    unfold getIndexFold
    rw [decompose_congr hpts hvec]
    simp only [hcong]
  have hbs : ∀ b ∈ intra ++ inter, ∃ z w : ℤ, b = (![(z : ℝ)], ![(w : ℝ)]) ∧ res n (z : ℝ) ≠ res n (w : ℝ) := by
    have hne : ∀ a : ℤ, res n ((a : ℤ) : ℝ) ≠ res n ((a + 1 : ℤ) : ℝ) := by
      intro a h
      unfold res at h
      rw [Int.floor_intCast, Int.floor_intCast] at h
      have h1 := Int.emod_nonneg a (show (n : ℤ) ≠ 0 by omega)
      have h2 := Int.emod_nonneg (a + 1) (show (n : ℤ) ≠ 0 by omega)
      have h3 : a % n = (a + 1) % n := by omega
      have h4 : (n : ℤ) ∣ 1 := by
        have := (Int.emod_emod_of_dvd a (dvd_refl (n : ℤ)))
        have h5 := Int.ModEq.dvd (show a ≡ a + 1 [ZMOD n] from h3)
        simpa using h5
      have := Int.le_of_dvd one_pos h4
      omega
    intro b hb
    rcases List.mem_append.1 hb with hb | hb
    · obtain ⟨a, -, rfl⟩ := List.mem_map.1 (hintra.mem_iff.1 hb)
      exact ⟨a, a + 1, by simp [forward], hne a⟩
    · obtain ⟨a, -, rfl⟩ := List.mem_map.1 (hinter.mem_iff.1 hb)
      split
      · refine ⟨((a + 1) % n : ℕ), ((a + 1) % n : ℕ) - 1, by simp only [backward, Int.cast_sub, Int.cast_natCast,
          Nat.cast_one, Int.cast_one], ?_⟩
        have := hne ((((a + 1) % n : ℕ) : ℤ) - 1)
        rw [sub_add_cancel] at this
        exact this.symm
      · exact ⟨a, a + 1, by simp [forward], hne a⟩
  have hne : intra ++ inter ≠ [] := by
    intro h0
    have h1 : inter = [] := (List.append_eq_nil_iff.1 h0).2
    rw [h1] at hinter
    have h2 := hinter.length_eq
    rw [List.length_map, List.length_nil] at h2
    have h3 := List.eq_nil_of_length_eq_zero h2.symm
    rw [List.filter_eq_nil_iff] at h3
    have := h3 (n - 1) (List.mem_range.2 (by omega))
    simp only [decide_eq_true_eq] at this
    omega
  obtain ⟨Ms, m1, m2, m3⟩ := exchangeLoop_ok hn1 hidx (J : ℂ) (intra ++ inter) fun b hb => by
    obtain ⟨z, w, h, -⟩ := hbs b hb
    exact ⟨z, w, h⟩
  refine ⟨L', ?_, fun i => by rw [hpts, e2], fun i => ?_⟩
  · unfold heisenbergSetup
    rw [e1]
    dsimp only
    rw [hb]
    dsimp only
    rw [m1]
    dsimp only [andThen]
    unfold exchangeMatrix
    rw [if_neg (m2 hne), m3]
    dsimp only [bind, Except.bind, pure, Except.pure]
    congr 4
    let F : ℕ → ℕ → Matrix (Fin (2 ^ n)) (Fin (2 ^ n)) ℂ := fun i j =>
      if i < n ∧ j < n then (J : ℂ) • spinDot n i j else 0
    have hF : ∀ i j, F i j = F j i := by
      intro i j
      dsimp only [F]
      by_cases h : i < n ∧ j < n
      · rw [if_pos h, if_pos h.symm, spinDot_comm h.1 h.2]
      · rw [if_neg h, if_neg fun h' => h h'.symm]
    have hsum := ring_sum hn1 F hF hintra hinter
    have hR : ringHeisenberg n J = ∑ i ∈ Finset.range n, F i ((i + 1) % n) := by
      unfold ringHeisenberg
      rw [Finset.smul_sum]
      refine Finset.sum_congr rfl fun i hi => ?_
      dsimp only [F]
      rw [if_pos ⟨Finset.mem_range.1 hi, Nat.mod_lt _ hn1⟩]
    rw [hR, ← hsum]
    have hfold : ∀ bs : List (LBond 1), (∀ b ∈ bs, ∃ z w : ℤ, b = (![(z : ℝ)], ![(w : ℝ)]) ∧
        res n (z : ℝ) ≠ res n (w : ℝ)) →
        (bs.map fun b => bondTerm n J (res n (b.1 0)) (res n (b.2 0))).sum +
          (bs.map fun b => bondTerm n J (res n (b.1 0)) (res n (b.2 0))).sumᴴ =
        (bs.map fun b => F (res n (b.1 0)) (res n (b.2 0))).sum := by
      intro bs hbs
      induction bs with
      | nil => simp
      | cons b rest ih =>
        have hrest := ih fun b hb => hbs b (List.mem_cons_of_mem _ hb)
        obtain ⟨z, w, rfl, hzw⟩ := hbs b List.mem_cons_self
        rw [List.map_cons, List.sum_cons, List.map_cons, List.sum_cons, conjTranspose_add, ← hrest]
        have h1 := bondTerm_adj (res_lt hn1 (z : ℝ)) (res_lt hn1 (w : ℝ)) hzw J
        have h2 : F (res n (z : ℝ)) (res n (w : ℝ)) = (J : ℂ) • spinDot n (res n z) (res n w) :=
          if_pos ⟨res_lt hn1 _, res_lt hn1 _⟩
        have h3 : F (res n (((![(z : ℝ)], ![(w : ℝ)]) : LBond 1).1 0)) (res n (((![(z : ℝ)], ![(w : ℝ)]) : LBond 1).2 0)) =
          bondTerm n J (res n z) (res n w) + (bondTerm n J (res n z) (res n w))ᴴ := h2.trans h1.symm
        rw [h3]
        change bondTerm n J (res n z) (res n w) + _ + ((bondTerm n J (res n z) (res n w))ᴴ + _) = _
        abel
    exact hfold _ hbs
  · rw [hcong, hpts]
    exact (C47_getIndex_getSite e4 (near n 1) (hnear n 1) i).2

end Verif.Demo
