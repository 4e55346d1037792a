import Verif.Props.Lattice
/-!
# C49: `decompose` and `getIndex(fold=True)` find the translates of cluster points

The full property is false: for very oblique translation vectors the scope search stops too early
(`C49_violated_oblique`).  It holds for every basis whose vectors are not too oblique: weakly
orthogonal ones in any dimension, any single vector, and any two vectors at 60 to 120 degrees.
-/

namespace Verif.Latt

variable {n m k : ℕ}

/-- What `decompose` and the folding lookup should do with the translate by `c` of point `i`. -/
def FindsTranslate (prec : ℕ) (L : Lat n m k) (i : Fin n) (c : Fin k → ℤ) : Prop :=
  decompose prec L (L.points i + comb L.vectors c) = some (.ok (L.points i, comb L.vectors c)) ∧
  ∀ near, IsNearest near →
    getIndexFold near prec L (L.points i + comb L.vectors c) = some (.ok i)

theorem findsTranslate_of_decompose {prec : ℕ} {points : Fin n → Pt m} {vectors : Fin k → Pt m}
    {L : Lat n m k} (h : init prec points vectors = .ok L) {i : Fin n} {c : Fin k → ℤ}
    (hd : decompose prec L (L.points i + comb L.vectors c) =
      some (.ok (L.points i, comb L.vectors c))) : FindsTranslate prec L i c := by
  refine ⟨hd, fun near hn => ?_⟩
  unfold getIndexFold
  rw [hd]
  dsimp only
  have hp := (C46_reciprocal_dual h).1
  rw [hp, (C47_getIndex_getSite h near hn i).2]

/-- **C49 (weakly orthogonal vectors, any dimension).** Every translate of every cluster point is
decomposed into that point and that translation. -/
theorem C49_finds_weaklyOrthogonal_partial {prec : ℕ} {points : Fin n → Pt m}
    {vectors : Fin k → Pt m} {L : Lat n m k} (h : init prec points vectors = .ok L)
    (hi : Inequivalent prec points vectors) (hv : WeaklyOrthogonal vectors) (i : Fin n)
    (c : Fin k → ℤ) : FindsTranslate prec L i c := by
  obtain ⟨h1, h2, h3, _⟩ := C46_reciprocal_dual h
  refine findsTranslate_of_decompose h (decompose_translate h3 (by rw [h1, h2]; exact hi) ?_ i c)
  rw [h2]; exact shellMonotone_of_weaklyOrthogonal _ hv

/-- **C49 (one translation vector).** -/
theorem C49_finds_chain_partial {prec : ℕ} {points : Fin n → Pt m} {vectors : Fin 1 → Pt m}
    {L : Lat n m 1} (h : init prec points vectors = .ok L) (hi : Inequivalent prec points vectors)
    (i : Fin n) (c : Fin 1 → ℤ) : FindsTranslate prec L i c :=
  C49_finds_weaklyOrthogonal_partial h hi (weaklyOrthogonal_one vectors) i c

/-- **C49 (two vectors at an angle of 60 to 120 degrees).** -/
theorem C49_finds_wideAngle_partial {prec : ℕ} {points : Fin n → Pt m} {vectors : Fin 2 → Pt m}
    {L : Lat n m 2} (h : init prec points vectors = .ok L) (hi : Inequivalent prec points vectors)
    (hv : WideAngle vectors) (i : Fin n) (c : Fin 2 → ℤ) : FindsTranslate prec L i c := by
  obtain ⟨h1, h2, h3, _⟩ := C46_reciprocal_dual h
  refine findsTranslate_of_decompose h (decompose_translate h3 (by rw [h1, h2]; exact hi) ?_ i c)
  rw [h2]; exact shellMonotone_of_wideAngle _ hv

/-- **C49 (neighbouring cells, every lattice).** Translations with components -1, 0, 1 are always
found. -/
theorem C49_finds_neighbours_partial {prec : ℕ} {points : Fin n → Pt m} {vectors : Fin k → Pt m}
    {L : Lat n m k} (h : init prec points vectors = .ok L) (hi : Inequivalent prec points vectors)
    (i : Fin n) (c : Fin k → ℤ) (hc : ∀ q, |c q| ≤ 1) : FindsTranslate prec L i c := by
  obtain ⟨h1, h2, h3, _⟩ := C46_reciprocal_dual h
  rw [← h1, ← h2] at hi
  refine findsTranslate_of_decompose h ?_
  have hdi : L.points i + comb L.vectors c - L.points i = comb L.vectors c := by abel
  have := searching_unique (prec := prec) (L := L) (db := mesh [-1, 0, 1] k)
    (disp := fun j => L.points i + comb L.vectors c - L.points j) i
    ⟨c, (mem_mesh _ _).2 fun q => by
        have := abs_le.1 (hc q)
        have : c q = -1 ∨ c q = 0 ∨ c q = 1 := by omega
        simpa using this,
      by rw [hdi, ndist_self]; exact tol_pos prec⟩
    (by
      rintro j ⟨d, _, hd⟩
      by_contra hij
      have := hi i j (Ne.symm hij) (c - d)
      rw [ndist_eq] at this hd
      rw [comb_sub, show L.points i + (comb L.vectors c - comb L.vectors d) - L.points j =
        L.points i + comb L.vectors c - L.points j - comb L.vectors d by abel] at this
      linarith)
  unfold decompose
  dsimp only
  rw [this, hdi]

/-- The square lattice meets the hypotheses: its site (7, -3) folds back to point 0. -/
example : ∃ L near, init 4 sqPoints sqVectors = .ok L ∧ IsNearest near ∧
    getIndexFold near 4 L ![7, -3] = some (.ok 0) := by
  obtain ⟨L, h⟩ := sq_accepted
  obtain ⟨near, hn⟩ := exists_nearest 1 2
  have hi : Inequivalent 4 sqPoints sqVectors := fun i j hij => absurd (Subsingleton.elim i j) hij
  have hw : WideAngle sqVectors := by simp [WideAngle, gram, sqVectors, Fin.sum_univ_two]
  have := (C49_finds_wideAngle_partial h hi hw 0 ![7, -3]).2 near hn
  obtain ⟨h1, h2, _⟩ := C46_reciprocal_dual h
  refine ⟨L, near, h, hn, ?_⟩
  rw [h1, h2] at this
  convert this using 2
  funext a
  fin_cases a <;> simp [sqPoints, sqVectors, comb, Fin.sum_univ_two]

/-- **C48 (rejection).** A site that is not within the tolerance of any translate of any cluster point is
refused with RuntimeError, for every accepted lattice with a point and a translation vector. -/
theorem C48_decompose_rejects {prec : ℕ} {points : Fin n → Pt m} {vectors : Fin k → Pt m}
    {L : Lat n m k} (h : init prec points vectors = .ok L) (hk : 1 ≤ k) (hn : 1 ≤ n) {site : Pt m}
    (hs : ∀ i (c : Fin k → ℤ), tol prec ≤ ndist (site - points i) (comb vectors c)) :
    decompose prec L site = some (.error .runtimeError) := by
  obtain ⟨h1, h2, h3, _⟩ := C46_reciprocal_dual h
  rw [← h1, ← h2] at hs
  unfold decompose
  dsimp only
  rw [searching_none fun i c _ => hs i c]
  dsimp only
  obtain ⟨r, hr, _⟩ := maxNorm_ok (by omega) (fun i => site - L.points i)
  rw [hr]
  dsimp only
  obtain ⟨s, hs'⟩ := guessScope_terminates h3 (by omega) (by omega) r
  rw [hs']
  dsimp only
  rw [searching_none fun i c _ => hs i c]

/-- The hypotheses of C48 are met: the site (1/2, 0) is refused by the square lattice, and (7, -3) is
decomposed. -/
example : ∃ L, init 4 sqPoints sqVectors = .ok L ∧
    decompose 4 L ![1 / 2, 0] = some (.error .runtimeError) ∧
    ∃ p d, decompose 4 L (L.points 0 + comb L.vectors ![7, -3]) = some (.ok (p, d)) := by
  obtain ⟨L, h⟩ := sq_accepted
  have hi : Inequivalent 4 sqPoints sqVectors := fun i j hij => absurd (Subsingleton.elim i j) hij
  have hw : WideAngle sqVectors := by simp [WideAngle, gram, sqVectors, Fin.sum_univ_two]
  refine ⟨L, h, C48_decompose_rejects h (by norm_num) le_rfl fun i c => ?_, _, _,
    (C49_finds_wideAngle_partial h hi hw 0 ![7, -3]).1⟩
  refine le_ndist_two ?_
  simp [sqPoints, sqVectors, comb, Fin.sum_univ_two, tol]
  have h1 : (1 / 4 : ℝ) ≤ (2⁻¹ - (c 0 : ℝ)) ^ 2 := by
    rcases le_or_gt (c 0) 0 with h | h
    · have : (c 0 : ℝ) ≤ 0 := by exact_mod_cast h
      nlinarith
    · have : (1 : ℝ) ≤ c 0 := by exact_mod_cast h
      nlinarith
  nlinarith [sq_nonneg (c 1 : ℝ)]

/-! ### The counterexample -/

/-- Two translation vectors at an angle of a quarter of a degree. -/
noncomputable def obVectors : Fin 2 → Pt 2 := ![![1, 0], ![5 / 2, 1 / 100]]

theorem comb_ob (c : Fin 2 → ℤ) : comb obVectors c = ![(c 0 : ℝ) + c 1 * (5 / 2), c 1 / 100] := by
  funext a
  fin_cases a
  · simp [comb, obVectors, Fin.sum_univ_two]
  · simp [comb, obVectors, Fin.sum_univ_two]; ring

theorem ob_accepted : ∃ L, init 4 sqPoints obVectors = .ok L := by
  rw [C46_accepted_iff]
  refine ⟨by norm_num, le_rfl, ?_, ?_, ?_⟩
  · intro i j hij
    have hi : i = 0 := by omega
    have hj : j = 1 := by omega
    subst hi; subst hj
    refine le_ndist_two ?_
    simp [obVectors, tol]; norm_num
  · intro i j hij; omega
  · rw [Fintype.linearIndependent_iff]
    intro g hg i
    have h0 := congrFun hg 0
    have h1 := congrFun hg 1
    simp [obVectors, Fin.sum_univ_two] at h0 h1
    fin_cases i
    · rw [h1] at h0; simpa using h0
    · exact h1

/-- **C49 is violated.** The lattice with one point at the origin and translation vectors (1, 0) and
(2.5, 0.01) is accepted, and its site (0, 0.02) = -5 (1, 0) + 2 (2.5, 0.01) is a translate of the point,
but `decompose` raises RuntimeError: all the translations of the first shell are longer than 0.02, so
the scope search stops before the second one. -/
theorem C49_violated_oblique : ∃ L, init 4 sqPoints obVectors = .ok L ∧
    Inequivalent 4 sqPoints obVectors ∧
    decompose 4 L (L.points 0 + comb L.vectors ![-5, 2]) = some (.error .runtimeError) := by
  obtain ⟨L, h⟩ := ob_accepted
  refine ⟨L, h, fun i j hij => absurd (Subsingleton.elim i j) hij, ?_⟩
  obtain ⟨h1, h2, h3, _⟩ := C46_reciprocal_dual h
  have hL : ∀ j, L.points j = 0 := by
    intro j; rw [h1]; funext a; fin_cases a <;> simp [sqPoints]
  have hsite : L.points 0 + comb L.vectors ![-5, 2] = ![0, 1 / 50] := by
    rw [hL, h2, comb_ob, zero_add]
    funext a
    fin_cases a
    · simp; norm_num
    · simp; norm_num
  rw [hsite]
  have hno : ∀ s : ℤ, s ≤ 1 → searching 4 L (mesh (pyRange (-s) (s + 1)) 2)
      (fun i => ![0, 1 / 50] - L.points i) = none := by
    intro s hs
    refine searching_none fun i c hc => ?_
    have hc1 := abs_le.1 ((mem_box s c).1 hc 1)
    have hc1' : (c 1 : ℝ) ≤ 1 := by exact_mod_cast (by omega : c 1 ≤ 1)
    rw [hL, sub_zero, h2, comb_ob]
    refine le_ndist_two ?_
    simp [tol]
    have : (1 / 100 : ℝ) ≤ 1 / 50 - c 1 / 100 := by linarith
    nlinarith [sq_nonneg ((c 0 : ℝ) + c 1 * (5 / 2))]
  have hshell : ∀ c : Fin 2 → ℤ, OnShell c 1 → 1 / 50 < nnorm (comb L.vectors c) := by
    intro c hc
    rw [h2, comb_ob]
    have hq : (1 : ℝ) ≤ ((c 0 : ℝ) + c 1 * (5 / 2)) ^ 2 := by
      have b0 := abs_le.1 (hc.1 0)
      have b1 := abs_le.1 (hc.1 1)
      have : c 1 = -1 ∨ c 1 = 0 ∨ c 1 = 1 := by omega
      have b0' : (-1 : ℝ) ≤ c 0 := by exact_mod_cast b0.1
      have b0'' : (c 0 : ℝ) ≤ 1 := by exact_mod_cast b0.2
      rcases this with h | h | h
      · rw [h]; push_cast; nlinarith
      · obtain ⟨i, hi⟩ := hc.2
        have h0 : |c 0| = 1 := by
          fin_cases i
          · exact hi
          · rw [show (1 : Fin 2) = ⟨1, by norm_num⟩ from rfl] at h
            rw [h] at hi; simp at hi
        rw [h]; push_cast
        have : |(c 0 : ℝ)| = 1 := by exact_mod_cast h0
        rw [zero_mul, add_zero, ← sq_abs, this]; norm_num
      · rw [h]; push_cast; nlinarith
    have : (1 : ℝ) ≤ nnorm ![(c 0 : ℝ) + c 1 * (5 / 2), c 1 / 100] := by
      unfold nnorm
      refine Real.le_sqrt_of_sq_le ?_
      rw [Fin.sum_univ_two]; simp
      nlinarith [sq_nonneg ((c 1 : ℝ) / 100)]
    linarith
  have hnorm : nnorm (![0, 1 / 50] : Pt 2) = 1 / 50 := by
    unfold nnorm
    rw [Fin.sum_univ_two]; simp
  have hmax : maxNorm (fun i : Fin 1 => (![0, 1 / 50] : Pt 2) - L.points i) = .ok (1 / 50) := by
    unfold maxNorm
    simp only [hL, sub_zero, hnorm]
    rfl
  have hscope : guessScope L (1 / 50) = some (.ok 0) := by
    obtain ⟨s, hs, hs1, h4, h5⟩ := C50_guess_scope_terminates h (by norm_num) le_rfl (1 / 50)
    have : s = 0 := by
      by_contra hne
      rcases lt_or_gt_of_ne hne with hlt | hgt
      · have : s = -1 := by omega
        have := h4 0 ⟨fun i => by simp [this], 0, by simp [this]⟩ 0 0
        rw [comb_zero, add_zero, ndist_self] at this
        norm_num at this
      · obtain ⟨c, hc, i, j, hij⟩ := h5 0 (by norm_num) hgt
        have h6 := hshell c (by simpa using hc)
        rw [Subsingleton.elim j i, ndist_eq, add_sub_cancel_left, ← h2] at hij
        linarith
    rw [hs, this]
  unfold decompose
  dsimp only
  have hm : mesh [-1, 0, 1] 2 = mesh (pyRange (-1) (1 + 1)) 2 := rfl
  rw [hm, hno 1 le_rfl]
  dsimp only
  rw [hmax]
  dsimp only
  rw [hscope]
  dsimp only
  rw [hno 0 (by norm_num)]

end Verif.Latt
