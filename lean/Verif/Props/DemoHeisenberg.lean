import Verif.Proofs.HeisenbergGreen
import Verif.Props.DemoGreen
/-!
# C88, C89: the Heisenberg demos
-/

namespace Verif.Demo

open Latt LDB Spec Matrix Lanczos GF

variable {prec : ℕ}

/-- **C88 (Hamiltonian of the Heisenberg demos).** For every number of sites from two on and every real `J`, the scripts
build their Hamiltonian without error, and it is the matrix of `J sum_i S_i . S_{i+1}` on the ring, whatever the
iteration order of the sets used internally, whichever representative of the boundary bond the lattice returns, and
whichever nearest point the KD-tree picks on a tie.  It is Hermitian and commutes with the three components of the
total spin. -/
theorem C88_hamiltonian (near : ∀ n m : ℕ, (Fin n → Pt m) → Pt m → Option (Fin n))
    (hnear : ∀ n m, IsNearest (near n m)) (order : ∀ k : ℕ, List (Fin k → ℤ) → List (Fin k → ℤ))
    (horder : ∀ k l, (order k l).Perm l) (porder : ∀ N : ℕ, List (Fin N × Fin N) → List (Fin N × Fin N))
    (hporder : ∀ N l, (porder N l).Perm l) (hprec : 1 ≤ prec) {n : ℕ} (hn : 2 ≤ n) (J : ℝ) :
    ∃ U, heisenbergSetup near order porder prec n J = some (.ok U) ∧ U.HM = ringHeisenberg n J ∧
      U.HM.IsHermitian ∧ ∀ a ∈ [SpinOtype.x, .y, .z], Commute U.HM (totalSpinOp n a) := by
  obtain ⟨L, h1, -, -⟩ := heisenbergSetup_ok (prec := prec) near hnear order horder porder hporder hprec hn J
  exact ⟨_, h1, rfl, ringHeisenberg_hermitian hn J, fun a ha => ringHeisenberg_su2 (by omega) J ha⟩

/-- **C89 (spectrum of HeisenbergChain1.py).** For every number of sites from two on, every real `J`, every list of
frequencies and every `eta ≠ 0`: the script finishes without error, and what it plots is the Lehmann sum of the spin
waves over any orthonormal eigenbasis of `J sum_i S_i . S_{i+1}`, for the eigenvector the diagonaliser returned. -/
theorem C89_exact_spectrum (near : ∀ n m : ℕ, (Fin n → Pt m) → Pt m → Option (Fin n))
    (hnear : ∀ n m, IsNearest (near n m)) (order : ∀ k : ℕ, List (Fin k → ℤ) → List (Fin k → ℤ))
    (horder : ∀ k l, (order k l).Perm l) (porder : ∀ N : ℕ, List (Fin N × Fin N) → List (Fin N × Fin N))
    (hporder : ∀ N l, (porder N l).Perm l) (hprec : 1 ≤ prec) {p n : ℕ} (hp : p ≤ 22) (hz : 10 ^ p * n ≤ 2 ^ 53)
    (hn : 2 ≤ n) {coordOf : ℝ → Coord} (hc : ∀ i < n, coordOf (i : ℝ) = .flt (.fin i)) (J : ℝ)
    (eig : (N : ℕ) → Matrix (Fin N) (Fin N) ℂ → ℝ × Vec N) (omegas : List ℝ) {eta : ℝ} (heta : eta ≠ 0)
    (g : Garbage omegas.length) :
    ∃ R, scriptHeisenberg1 near order porder (10 ^ p) coordOf prec eig n J omegas eta g = some (.ok R) ∧
      IsSpinSpectrum n (ringHeisenberg n J) (eig _ (ringHeisenberg n J)).1 (eig _ (ringHeisenberg n J)).2 omegas eta 0 R := by
  obtain ⟨L, h1, h2, h3⟩ := heisenbergSetup_ok (prec := prec) near hnear order horder porder hporder hprec hn J
  have hs := sites_of_exact p hp hz hc
  obtain ⟨D, d1, d2⟩ := spinGfsExact_ok hs (by omega) (ringHeisenberg_hermitian hn J)
    (GE := (eig _ (ringHeisenberg n J)).1) heta (eig _ (ringHeisenberg n J)).2 omegas g
  obtain ⟨R, r1, r2⟩ := spinFinish_close hprec (by omega) hc hs (ringHeisenberg_hermitian hn J) heta d2
  rw [mul_zero] at r2
  refine ⟨R, ?_, r2⟩
  unfold scriptHeisenberg1
  rw [h1]
  dsimp only [andThen]
  have e1 := spinExcitations_ok (prec := prec) hs h2 h3 (ringHeisenberg n J) (eig _ (ringHeisenberg n J)).2
  rw [e1]
  simp only [bind, Except.bind]
  rw [d1]
  dsimp only
  rw [r1]

/-- **C89 (spectrum of HeisenbergChain2.py).** Let the diagonaliser return a normalised vector.  With a Krylov limit above
the dimension of the space, `HeisenbergChain2.py` raises ValueError exactly when some `S_j^- |GS>` is not longer than the
threshold; otherwise it finishes and what it plots differs from the Lehmann sum by at most `n thr / eta^2`. -/
theorem C89_lanczos_spectrum (near : ∀ n m : ℕ, (Fin n → Pt m) → Pt m → Option (Fin n))
    (hnear : ∀ n m, IsNearest (near n m)) (order : ∀ k : ℕ, List (Fin k → ℤ) → List (Fin k → ℤ))
    (horder : ∀ k l, (order k l).Perm l) (porder : ∀ N : ℕ, List (Fin N × Fin N) → List (Fin N × Fin N))
    (hporder : ∀ N l, (porder N l).Perm l) (hprec : 1 ≤ prec) {p n : ℕ} (hp : p ≤ 22) (hz : 10 ^ p * n ≤ 2 ^ 53)
    (hn : 2 ≤ n) {coordOf : ℝ → Coord} (hc : ∀ i < n, coordOf (i : ℝ) = .flt (.fin i)) (J : ℝ)
    {eig : (N : ℕ) → Matrix (Fin N) (Fin N) ℂ → ℝ × Vec N}
    (heig : ∀ N M, M.IsHermitian → 0 < N → Lanczos.vdot (eig N M).2 (eig N M).2 = 1) {thr : ℝ} (ht : 0 ≤ thr) {K : ℤ}
    (hK : 2 ^ n < K) {omegas : List ℝ} (hom : omegas ≠ []) {eta : ℝ} (heta : eta ≠ 0) (g : Garbage omegas.length) :
    let GS := (eig _ (ringHeisenberg n J)).2
    ((∃ j < n, norm2 (siteOp n j (spinHalf .m) *ᵥ GS) ≤ thr) →
      scriptHeisenberg2 near order porder (10 ^ p) coordOf prec eig thr K n J omegas eta g =
        some (.error .valueError)) ∧
    ((∀ j < n, thr < norm2 (siteOp n j (spinHalf .m) *ᵥ GS)) →
      ∃ R, scriptHeisenberg2 near order porder (10 ^ p) coordOf prec eig thr K n J omegas eta g = some (.ok R) ∧
        IsSpinSpectrum n (ringHeisenberg n J) (eig _ (ringHeisenberg n J)).1 GS omegas eta (n * thr / eta ^ 2) R) := by
  intro GS
  obtain ⟨L, h1, h2, h3⟩ := heisenbergSetup_ok (prec := prec) near hnear order horder porder hporder hprec hn J
  have hs := sites_of_exact p hp hz hc
  have hH := ringHeisenberg_hermitian hn J
  have e1 := spinExcitations_ok (prec := prec) hs h2 h3 (ringHeisenberg n J) GS
  constructor
  · rintro ⟨j, hj, hbad⟩
    have := spinGfsLanczos_error hs (HM := ringHeisenberg n J) (GE := (eig _ (ringHeisenberg n J)).1) (eta := eta)
      (K := K) hj hbad g
    unfold scriptHeisenberg2
    rw [h1]
    dsimp only [andThen]
    change some (Except.bind (spinExcitations near (10 ^ p) coordOf prec _ GS) _) = _
    rw [e1]
    simp only [Except.bind]
    change some (Except.bind (spinGfsLanczos _ _ _ _ _ _ _ _ _) _) = _
    rw [this]
    rfl
  · intro hgood
    obtain ⟨D, d1, d2⟩ := spinGfsLanczos_ok hs (by omega) hH (GE := (eig _ (ringHeisenberg n J)).1) ht heta
      (heig _ _ hH (Nat.two_pow_pos n)) (K := K) (by exact_mod_cast hK) hom hgood g
    obtain ⟨R, r1, r2⟩ := spinFinish_close hprec (by omega) hc hs hH heta d2
    rw [← mul_div_assoc] at r2
    refine ⟨R, ?_, r2⟩
    unfold scriptHeisenberg2
    rw [h1]
    dsimp only [andThen]
    change some (Except.bind (spinExcitations near (10 ^ p) coordOf prec _ GS) _) = _
    rw [e1]
    simp only [Except.bind]
    change some (Except.bind (spinGfsLanczos _ _ _ _ _ _ _ _ _) _) = _
    rw [d1]
    simp only [Except.bind]
    rw [r1]

/-- **C89, the condition on the excited states.** For a normalised state without total spin the excited states all have
length `1 / sqrt 2`, so with a threshold below that `HeisenbergChain2.py` cannot fail. -/
theorem C89_singlet_excitations {n : ℕ} {GS : Vec (2 ^ n)} (hnorm : Lanczos.vdot GS GS = 1)
    (hS : totalSpinOp n .x *ᵥ GS = 0) {j : ℕ} (hj : j < n) :
    norm2 (siteOp n j (spinHalf .m) *ᵥ GS) = 1 / Real.sqrt 2 := by
  obtain ⟨-, a2, a3, a4, -⟩ := spinHalf_adj
  have hadj : ∀ (M : Matrix (Fin (2 ^ n)) (Fin (2 ^ n)) ℂ) (v w : Vec (2 ^ n)),
      Lanczos.vdot (M *ᵥ v) w = Lanczos.vdot v (Mᴴ *ᵥ w) := by
    intro M v w
    have := vdot_conjTranspose Mᴴ v w
    rw [conjTranspose_conjTranspose] at this
    rw [this]
  have hX : (totalSpinOp n .x)ᴴ = totalSpinOp n .x := by
    unfold totalSpinOp
    rw [conjTranspose_sum]
    refine Finset.sum_congr rfl fun i _ => ?_
    rw [siteOp_conjTranspose, a3]
  have hcomm := totalSpin_site (n : ℤ) .x j (by omega) (spinHalf .y)
  rw [totalSpin_eq, half_xy] at hcomm
  change totalSpinOp n .x * siteOp n j (spinHalf .y) - siteOp n j (spinHalf .y) * totalSpinOp n .x =
    siteOp n j (Complex.I • spinHalf .z) at hcomm
  have hz : Lanczos.vdot GS (siteOp n j (spinHalf .z) *ᵥ GS) = 0 := by
    have h1 : Lanczos.vdot GS (siteOp n j (Complex.I • spinHalf .z) *ᵥ GS) = 0 := by
      rw [← hcomm, sub_mulVec, vdot_sub_right, ← mulVec_mulVec, ← mulVec_mulVec, hS, mulVec_zero, vdot_zero_right,
        sub_zero]
      have := hadj (totalSpinOp n .x) GS (siteOp n j (spinHalf .y) *ᵥ GS)
      rw [hX, hS, vdot_zero_left] at this
      exact this.symm
    rw [siteOp_smul, smul_mulVec, vdot_smul_right] at h1
    exact (mul_eq_zero.1 h1).resolve_left Complex.I_ne_zero
  have hpm : spinHalf .p * spinHalf .m = (1 / 2 : ℂ) • 1 + spinHalf .z := by
    ext r c
    fin_cases r <;> fin_cases c <;> simp [spinHalf] <;> norm_num
  have key := hadj (siteOp n j (spinHalf .m)) GS (siteOp n j (spinHalf .m) *ᵥ GS)
  rw [siteOp_conjTranspose, a2, mulVec_mulVec, siteOp_mul n j hj, hpm, siteOp_add, siteOp_smul, siteOp_one n j hj,
    add_mulVec, smul_mulVec, one_mulVec, vdot_add_right, vdot_smul_right, hz, hnorm, vdot_self] at key
  have h1 : norm2 (siteOp n j (spinHalf .m) *ᵥ GS) ^ 2 = 1 / 2 := by
    have h2 : ((norm2 (siteOp n j (spinHalf .m) *ᵥ GS) ^ 2 : ℝ) : ℂ) = ((1 / 2 : ℝ) : ℂ) := by
      rw [key]; push_cast; ring
    exact_mod_cast h2
  have h2 : 0 ≤ norm2 (siteOp n j (spinHalf .m) *ᵥ GS) := Real.sqrt_nonneg _
  rw [← Real.sqrt_sq h2, h1, Real.sqrt_div zero_le_one, Real.sqrt_one]

open Classical in
/-- There are nearest-point queries as assumed. -/
theorem near_exists : ∃ near : ∀ n m : ℕ, (Fin n → Pt m) → Pt m → Option (Fin n), ∀ n m, IsNearest (near n m) := by
  have h : ∀ (n m : ℕ) (pts : Fin n → Pt m) (s : Pt m), ∃ o : Option (Fin n), (o = none ∧ n = 0) ∨
      ∃ i, o = some i ∧ ∀ j, ndist (pts i) s ≤ ndist (pts j) s := by
    intro n m pts s
    by_cases h0 : n = 0
    · exact ⟨none, .inl ⟨rfl, h0⟩⟩
    · have : Nonempty (Fin n) := ⟨⟨0, by omega⟩⟩
      obtain ⟨i, hi⟩ := Finite.exists_min fun i => ndist (pts i) s
      exact ⟨some i, .inr ⟨i, rfl, hi⟩⟩
  choose near hnear using h
  exact ⟨near, fun n m pts s => hnear n m pts s⟩

/-- HeisenbergChain1.py itself (ten sites, `J = 1`, `eta = 0.05`): the Hamiltonian is built and the spectrum is the one of
the definition. -/
example : ∃ near coordOf eig U R, heisenbergSetup near (fun _ => id) (fun _ => id) 4 10 1 = some (.ok U) ∧
    U.HM = ringHeisenberg 10 1 ∧
    scriptHeisenberg1 near (fun _ => id) (fun _ => id) (10 ^ 4) coordOf 4 eig 10 1 [0.5, 1] 0.05 (fun _ _ _ => 0) =
      some (.ok R) ∧
    IsSpinSpectrum 10 (ringHeisenberg 10 1) (eig _ (ringHeisenberg 10 1)).1 (eig _ (ringHeisenberg 10 1)).2 [0.5, 1] 0.05
      0 R := by
  obtain ⟨near, hnear⟩ := near_exists
  obtain ⟨eig, -⟩ := eig_exists
  obtain ⟨U, u1, u2, -⟩ := C88_hamiltonian (prec := 4) near hnear (fun _ => id) (fun _ l => List.Perm.refl l)
    (fun _ => id) (fun _ l => List.Perm.refl l) (by norm_num) (n := 10) (by norm_num) 1
  obtain ⟨R, r1, r2⟩ := C89_exact_spectrum (prec := 4) (p := 4) near hnear (fun _ => id) (fun _ l => List.Perm.refl l)
    (fun _ => id) (fun _ l => List.Perm.refl l) (by norm_num) (by norm_num) (n := 10) (by norm_num) (by norm_num)
    (coordOf := fun x => .flt (.fin ⌊x⌋)) (fun i _ => by simp) 1 eig [0.5, 1] (eta := 0.05) (by norm_num) (fun _ _ _ => 0)
  exact ⟨near, _, eig, U, R, by simpa using u1, u2, by simpa using r1, r2⟩

/-- The singlet of two spins. -/
noncomputable def singletVec (N : ℕ) (r : Fin N) : ℂ :=
  if N = 4 then (if (r : ℕ) = 1 then ((1 / Real.sqrt 2 : ℝ) : ℂ) else if (r : ℕ) = 2 then ((-1 / Real.sqrt 2 : ℝ) : ℂ) else 0)
  else if (r : ℕ) = 0 then 1 else 0

/-- HeisenbergChain2.py for two sites, with a diagonaliser that returns the singlet: it finishes, with an error of at most
`2 * 10^-10 / 0.05^2` (default threshold and Krylov limit), and no excited state is too short. -/
example : ∃ near coordOf R,
    scriptHeisenberg2 near (fun _ => id) (fun _ => id) (10 ^ 4) coordOf 4 (fun N _ => (-3 / 4, singletVec N)) 1e-10 200 2 1
      [0.5, 1] 0.05 (fun _ _ _ => 0) = some (.ok R) ∧
    IsSpinSpectrum 2 (ringHeisenberg 2 1) (-3 / 4) (singletVec _) [0.5, 1] 0.05 ((2 : ℕ) * 1e-10 / 0.05 ^ 2) R := by
  obtain ⟨near, hnear⟩ := near_exists
  have hs2 : (1 / Real.sqrt 2) * (1 / Real.sqrt 2) = 1 / 2 := by
    rw [div_mul_div_comm, Real.mul_self_sqrt (by norm_num)]; norm_num
  have hnorm : ∀ N, 0 < N → Lanczos.vdot (singletVec N) (singletVec N) = 1 := by
    intro N hN
    by_cases h4 : N = 4
    · subst h4
      have hs3 : (((1 / Real.sqrt 2 : ℝ) : ℂ)) * ((1 / Real.sqrt 2 : ℝ) : ℂ) = 1 / 2 := by
        rw [← Complex.ofReal_mul, hs2]; norm_num
      unfold Lanczos.vdot
      rw [Fin.sum_univ_four]
      have e0 : singletVec 4 0 = 0 := by simp [singletVec]
      have e1 : singletVec 4 1 = ((1 / Real.sqrt 2 : ℝ) : ℂ) := by simp [singletVec]
      have e2 : singletVec 4 2 = -((1 / Real.sqrt 2 : ℝ) : ℂ) := by simp [singletVec, neg_div]
      have e3 : singletVec 4 3 = 0 := by simp [singletVec]
      rw [e0, e1, e2, e3, star_neg, Complex.star_def, Complex.conj_ofReal, map_zero]
      linear_combination 2 * hs3
    · unfold Lanczos.vdot
      rw [Finset.sum_eq_single ⟨0, hN⟩]
      · simp [singletVec, h4]
      · intro b _ hb
        have : (b : ℕ) ≠ 0 := fun h => hb (Fin.ext h)
        simp [singletVec, h4, this]
      · simp
  have hsing : totalSpinOp 2 .x *ᵥ singletVec (2 ^ 2) = 0 := by
    unfold totalSpinOp
    rw [Finset.sum_range_succ, Finset.sum_range_one]
    have h0 : ∀ A a b, siteOp 2 0 A a b = if digit a 1 = digit b 1 then A (digit a 0) (digit b 0) else 0 := by
      intro A a b
      unfold siteOp
      rw [Matrix.of_apply]
      refine if_congr ⟨fun h => h 1 (by norm_num) (by norm_num), fun h j hj h0 => ?_⟩ rfl rfl
      obtain rfl : j = 1 := by omega
      exact h
    have h1 : ∀ A a b, siteOp 2 1 A a b = if digit a 0 = digit b 0 then A (digit a 1) (digit b 1) else 0 := by
      intro A a b
      unfold siteOp
      rw [Matrix.of_apply]
      refine if_congr ⟨fun h => h 0 (by norm_num) (by norm_num), fun h j hj h0 => ?_⟩ rfl rfl
      obtain rfl : j = 0 := by omega
      exact h
    funext r
    change ∑ c : Fin 4, (siteOp 2 0 (spinHalf .x) + siteOp 2 1 (spinHalf .x)) r c * singletVec 4 c = 0
    rw [Fin.sum_univ_four]
    simp only [Matrix.add_apply, h0, h1]
    fin_cases r <;> simp [digit, spinHalf, singletVec] <;> ring
  obtain ⟨R, r1, r2⟩ := (C89_lanczos_spectrum (prec := 4) (p := 4) near hnear (fun _ => id) (fun _ l => List.Perm.refl l)
    (fun _ => id) (fun _ l => List.Perm.refl l) (by norm_num) (by norm_num) (n := 2) (by norm_num) (by norm_num)
    (coordOf := fun x => .flt (.fin ⌊x⌋)) (fun i _ => by simp) 1 (eig := fun N _ => (-3 / 4, singletVec N))
    (fun N _ _ hN => hnorm N hN) (thr := 1e-10) (by norm_num) (K := 200) (by norm_num) (omegas := [0.5, 1]) (by simp)
    (eta := 0.05) (by norm_num) (fun _ _ _ => 0)).2 (by
      intro j hj
      rw [C89_singlet_excitations (hnorm _ (by norm_num)) hsing hj]
      rw [lt_div_iff₀ (by positivity)]
      have : Real.sqrt 2 < 2 := by
        rw [Real.sqrt_lt' (by norm_num)]; norm_num
      linarith)
  exact ⟨near, _, R, by simpa using r1, r2⟩

end Verif.Demo
