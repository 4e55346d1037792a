import Verif.Proofs.HubbardScript
import Verif.Props.DemoGreen
/-!
# Properties C91, C92, C93: HubbardChain.py
-/

namespace Verif.Demo

open Latt LDB Spec Matrix Lanczos GF
open scoped Matrix.Norms.L2Operator

section

variable {prec p n : ℕ} (order : ∀ k : ℕ, List (Fin k → ℤ) → List (Fin k → ℤ)) (horder : ∀ k l, (order k l).Perm l)
  (porder : ∀ N : ℕ, List (Fin N × Fin N) → List (Fin N × Fin N)) (hporder : ∀ N l, (porder N l).Perm l)
  (hprec : 1 ≤ prec) (hp : p ≤ 22) (hz : 10 ^ p * n ≤ 2 ^ 53)
  {coordOf : ℝ → Coord} (hc : ∀ i < n, coordOf (i : ℝ) = .flt (.fin i)) (t U : ℝ)

include horder hporder hprec hp hz hc

/-- **C91 (Hamiltonian of HubbardChain.py).** For every number of sites, every `t` and `U` and all particle numbers: the
script builds its terms and its table without error, the table numbers site `i` of spin `s` by `s n + i`, and on the basis
returned by `base_vectors` for `Nup` and `Ndown` particles its matrix is that of
`U sum_i n_{i,up} n_{i,down} + t sum_{i,s} (c_{i,s}^dagger c_{i+1,s} + h.c.)` on the open chain; it is Hermitian. -/
theorem C91_hamiltonian (hn : 1 ≤ n) (h64 : 2 * n ≤ 64) :
    ∃ T, hubbardTerms order porder (10 ^ p) coordOf prec n t U = some (.ok T) ∧
      (∀ s : ℕ, s < 2 → ∀ i < n, ∀ st, StateID.init (10 ^ p) [coordOf (i : ℝ)] (s : ℤ) = .ok st →
        T.table.queryIndex st = .ok ((s * n + i : ℕ) : ℤ)) ∧
      ∀ Nup Ndown : ℕ, Nup ≤ n → Ndown ≤ n →
        ∃ V, hubbardSpace (10 ^ p) coordOf T.cluster.lat T.table T.terms Nup Ndown = .ok V ∧
          baseVectors (spinSpecs n Nup Ndown) = .ok V.basis ∧
          (∀ r c : Fin V.basis.length,
            V.HM r c = matrixElement (hubbardHamiltonian n t U) (occ V.basis[r]) (occ V.basis[c])) ∧
          V.HM.IsHermitian := by
  have hst := states_of_exact p hp hz hc
  obtain ⟨L, inter, terms, table, hT, hL, hdec, hi, hq, hH⟩ := hubbardTerms_ok horder hporder hprec hst hn h64 t U
  refine ⟨_, hT, ?_, ?_⟩
  · intro s hs i hi st hst'
    rw [hst.init_eq s i hi] at hst'
    cases hst'
    exact hq s hs i hi
  · intro Nup Ndown hup hdown
    obtain ⟨kets, h1, h2, -⟩ := hubbardSpace_ok hst hn h64 hL hq hH hup hdown
    exact ⟨_, h1, h2, fun r c => rfl, opMat_adj (isAdj_hubbard n t U)⟩

variable {eig : (N : ℕ) → Matrix (Fin N) (Fin N) ℂ → ℝ × Vec N}
  (heig : ∀ N M, M.IsHermitian → 0 < N →
    M *ᵥ (eig N M).2 = ((eig N M).1 : ℂ) • (eig N M).2 ∧ vdot (eig N M).2 (eig N M).2 = 1)
  {thr : ℝ} (hthr : 0 ≤ thr) {K : ℤ} {omegas : List ℝ} (hom : omegas ≠ []) {eta : ℝ} (heta : 0 < eta)
  {step : ℝ} (hstep : step ≠ 0) (g : Garbage omegas.length)

include heig hthr hom heta hstep

/-- **C92 (cluster perturbation theory of HubbardChain.py).** For every cluster of at least two sites, every `t`, `U`,
broadening, set of frequencies and step of the momenta, if `krylov_space_dim` exceeds the dimension of the sectors (without
interaction: the number of sites), the script with any exact diagonaliser
* raises ValueError if in the eigenstate some single-particle state is empty or full up to `thr^2`;
* otherwise the Green function of the cluster exists and is unique, the spectral function of cluster perturbation theory is
  positive at every momentum, and as soon as `thr` is small compared with the broadening (always for `thr = 0`) the script
  returns on the grid of momenta `(G^-1 - V(k))^-1`, made translation invariant, with an error proportional to `thr`; no matrix
  it inverts is singular. -/
theorem C92_cluster_perturbation (hn : 2 ≤ n) (h64 : 2 * n ≤ 64)
    (hK : (U = 0 ∧ (n : ℤ) < K) ∨ (((n.choose (n / 2)) ^ 2 : ℕ) : ℤ) < K) :
    ∃ T V, hubbardTerms order porder (10 ^ p) coordOf prec n t U = some (.ok T) ∧
      hubbardSpace (10 ^ p) coordOf T.cluster.lat T.table T.terms (n / 2 : ℕ) (n / 2 : ℕ) = .ok V ∧
      ((∃ q < 2 * n, occupation V.basis (eig V.basis.length V.HM).2 q ≤ thr ^ 2 ∨
          1 - occupation V.basis (eig V.basis.length V.HM).2 q ≤ thr ^ 2) →
        scriptHubbard order porder (10 ^ p) coordOf prec eig thr K n t U step omegas eta g = some (.error .valueError)) ∧
      ((∀ q < 2 * n, thr ^ 2 < occupation V.basis (eig V.basis.length V.HM).2 q ∧
          thr ^ 2 < 1 - occupation V.basis (eig V.basis.length V.HM).2 q) →
        ∃ G : Fin omegas.length → Matrix (Fin 2 × Fin n) (Fin 2 × Fin n) ℂ,
          (∀ w G', IsClusterGreen n (hubbardHamiltonian n t U) (eig V.basis.length V.HM).1
            (stateOf V.basis (eig V.basis.length V.HM).2) (omegas.get w + Complex.I * eta) G' ↔ G' = G w) ∧
          (∀ w k, 0 < -(cptGreen n t k (G w)).im) ∧
          ((∀ w, (|omegas.get w| + eta + 2 * ((|U| + 4 * |t|) * n)) ^ 2 * (2 * n * thr / eta ^ 2) < eta) →
            2 * |t| * (2 * n * thr / eta ^ 2) * (1 + 2 * |t| / eta) ≤ 1 / 2 →
            ∃ R, scriptHubbard order porder (10 ^ p) coordOf prec eig thr K n t U step omegas eta g = some (.ok R) ∧
              R.kpts = (List.range ⌈(1 + step) / step⌉₊).map (fun i : ℕ => [(-(1 / 2) + i * step) * (2 * Real.pi)]) ∧
              ∀ w i, ‖R.gfs w i - cptGreen n t ((-(1 / 2) + (i : ℕ) * step) * (2 * Real.pi)) (G w)‖ ≤
                4 * (2 * n * thr / eta ^ 2) * (1 + 2 * |t| / eta) ^ 2)) := by
  obtain ⟨st, hst⟩ : ∃ st, States (10 ^ p) coordOf n st := ⟨_, states_of_exact p hp hz hc⟩
  have hn1 : 1 ≤ n := by omega
  obtain ⟨L, inter, terms, table, hT, hL, hdec, hi, hq, hH⟩ := hubbardTerms_ok horder hporder hprec hst hn1 h64 t U
  set H := hubbardHamiltonian n t U with hHdef
  have hadj : IsAdj H H := isAdj_hubbard n t U
  obtain ⟨m, hm⟩ : ∃ m, m = n / 2 := ⟨_, rfl⟩
  have hm1 : 1 ≤ m := by omega
  have hmn : m + 1 ≤ n := by omega
  rw [← hm] at hK ⊢
  have hmid : ∀ a, n.choose a ≤ n.choose m := fun a => hm ▸ Nat.choose_le_middle a n
  obtain ⟨B, hV, b1, b2, b3, b4, b5, b6⟩ := hubbardSpace_ok hst hn1 h64 hL hq hH (Nup := m) (Ndown := m) (by omega) (by omega)
  have SB : SpinBasis n m m B := ⟨b1, b2, b3, b4, b5, b6⟩
  have hspace : ∀ a b : ℕ, a ≤ n → b ≤ n → ∃ kets, hubbardSpace (10 ^ p) coordOf L table terms a b =
      .ok ⟨table, kets, opMat kets H⟩ ∧ SpinBasis n a b kets := by
    intro a b ha hb
    obtain ⟨kets, h, b1, b2, b3, b4, b5, b6⟩ := hubbardSpace_ok hst hn1 h64 hL hq hH ha hb
    exact ⟨kets, h, b1, b2, b3, b4, b5, b6⟩
  have hPs : ∀ s : Fin 2, ∃ kets, hubbardSpace (10 ^ p) coordOf L table terms (sectorNumbers m (s : ℕ) 1).1
      (sectorNumbers m (s : ℕ) 1).2 = .ok ⟨table, kets, opMat kets H⟩ ∧
      SpinBasis n (if s = 1 then m + 1 else m) (if s = 1 then m else m + 1) kets := by
    intro s
    obtain rfl | rfl : s = 0 ∨ s = 1 := by omega
    · obtain ⟨kets, h1, h2⟩ := hspace m (m + 1) (by omega) (by omega)
      exact ⟨kets, by simpa [sectorNumbers] using h1, h2⟩
    · obtain ⟨kets, h1, h2⟩ := hspace (m + 1) m (by omega) (by omega)
      exact ⟨kets, by simpa [sectorNumbers] using h1, h2⟩
  have hHs : ∀ s : Fin 2, ∃ kets, hubbardSpace (10 ^ p) coordOf L table terms (sectorNumbers m (s : ℕ) (-1)).1
      (sectorNumbers m (s : ℕ) (-1)).2 = .ok ⟨table, kets, opMat kets H⟩ ∧
      SpinBasis n (if s = 1 then m - 1 else m) (if s = 1 then m else m - 1) kets := by
    have e : (m : ℤ) + -1 = ((m - 1 : ℕ) : ℤ) := by omega
    intro s
    obtain rfl | rfl : s = 0 ∨ s = 1 := by omega
    · obtain ⟨kets, h1, h2⟩ := hspace m (m - 1) (by omega) (by omega)
      exact ⟨kets, by simpa [sectorNumbers, e] using h1, h2⟩
    · obtain ⟨kets, h1, h2⟩ := hspace (m - 1) m (by omega) (by omega)
      exact ⟨kets, by simpa [sectorNumbers, e] using h1, h2⟩
  choose Bp hPs SP using hPs
  choose Bh hHs SH using hHs
  refine ⟨_, _, hT, hV, ?_⟩
  obtain ⟨hGS, hnorm⟩ := heig B.length (opMat B H) (opMat_adj hadj) (List.length_pos_iff.2 b2)
  dsimp only
  obtain ⟨GE, GS, hEG⟩ : ∃ GE GS, eig B.length (opMat B H) = (GE, GS) := ⟨_, _, rfl⟩
  rw [hEG] at hGS hnorm ⊢
  dsimp only at hGS hnorm ⊢
  have hC : ∀ s : Fin 2, ∀ j < n, MapsTo (create (s * n + j)) B (Bp s) := by
    intro s j hj
    refine SB.step (SP s) .creation s hj ?_ ?_
    · obtain rfl | rfl : s = 0 ∨ s = 1 := by omega
      · simp
      · simp
    · obtain rfl | rfl : s = 0 ∨ s = 1 := by omega
      · simp
      · simp
  have hA : ∀ s : Fin 2, ∀ j < n, MapsTo (annihilate (s * n + j)) B (Bh s) := by
    intro s j hj
    refine SB.step (SH s) .annihilation s hj ?_ ?_
    · obtain rfl | rfl : s = 0 ∨ s = 1 := by omega
      · simp
      · simp; omega
    · obtain rfl | rfl : s = 0 ∨ s = 1 := by omega
      · simp; omega
      · simp
  obtain ⟨d, hd1, hdK, hWC, hWA⟩ : ∃ d : ℕ, 1 ≤ d ∧ (d : ℤ) < K ∧
      (∀ s : Fin 2, ∀ j < n, SmallKrylov (opMat (Bp s) H) (opMat2 (Bp s) B (create (s * n + j)) *ᵥ GS) d) ∧
      ∀ s : Fin 2, ∀ j < n, SmallKrylov (opMat (Bh s) H) (opMat2 (Bh s) B (annihilate (s * n + j)) *ᵥ GS) d := by
    rcases hK with ⟨rfl, hK⟩ | hK
    · exact ⟨n, hn1, hK, fun s j hj => free_smallC SB.nodup (SP s).nodup (SB.maps t 0) hGS s.2 (hC s) hj,
        fun s j hj => free_smallA SB.nodup (SH s).nodup (SB.maps t 0) hGS s.2 (hA s) hj⟩
    · have hpos : 1 ≤ n.choose m := Nat.choose_pos (by omega)
      refine ⟨(n.choose m) ^ 2, Nat.one_le_pow _ _ hpos, hK, fun s j hj => smallKrylov_top _ _ ?_,
        fun s j hj => smallKrylov_top _ _ ?_⟩
      · rw [(SP s).length, sq]
        exact Nat.mul_le_mul (hmid _) (hmid _)
      · rw [(SH s).length, sq]
        exact Nat.mul_le_mul (hmid _) (hmid _)
  obtain ⟨hgood, hbad⟩ := hubbardLoop_ok (inter := inter) (HM0 := opMat B H) hst hn1 h64 hL hq hadj SB.nodup hPs hHs
    (fun s => (SP s).asc) (fun s => (SH s).asc) (fun s => (SP s).ne) (fun s => (SH s).ne) hC hA hWC hWA hnorm hthr heta.ne'
    hd1 hdK hom g (GE := GE)
  have hscript : ∀ r, andThen (some (hubbardLoop (10 ^ p) coordOf thr K (m : ℕ) ⟨⟨n, 1, 1, L⟩, inter, terms, table⟩
      ⟨table, B, opMat B H⟩ GE GS omegas eta g spinPair ⟨[], fun _ => none⟩)) (fun D =>
        cptFinish (10 ^ p) coordOf prec n t step ⟨⟨n, 1, 1, L⟩, inter, terms, table⟩ D) = r →
      scriptHubbard order porder (10 ^ p) coordOf prec eig thr K n t U step omegas eta g = r := by
    rintro r rfl
    unfold scriptHubbard
    rw [hT]
    dsimp only [andThen]
    rw [← hm]
    have hV' := hV
    rw [hV']
    dsimp only [andThen]
    rw [hEG]
  constructor
  · intro hocc
    refine hscript _ ?_
    rw [hbad hocc]
    rfl
  · intro hocc
    obtain ⟨F, hF, hdiff, hsol⟩ := hgood hocc
    have hz' : ∀ w : Fin omegas.length, (zOf (omegas.get w) eta).im ≠ 0 := by
      intro w
      unfold zOf
      simp
      exact heta.ne'
    have hfC : ∀ q < 2 * n, MapsTo (create q) B (fullBasis n) := fun q hq k hk =>
      mapsTo_full_create hq k (SB.full k hk)
    have hfA : ∀ q < 2 * n, MapsTo (annihilate q) B (fullBasis n) := fun q hq k hk =>
      mapsTo_full_annihilate hq k (SB.full k hk)
    have hex := fun w : Fin omegas.length => clusterGreen_ok (n := n) (E := GE) hadj nodup_full (mapsTo_full_hubbard t U)
      SB.nodup hfC hfA hnorm (omega := omegas.get w) heta
    choose G hG hGd hGu hGn using hex
    have hb := norm_hubbard (n := n) t U
    rw [← hHdef] at hb
    have hE : |GE| ≤ (|U| + 4 * |t|) * n :=
      (energy_le SB.nodup nodup_full SB.full (SB.maps t U) (mapsTo_full_hubbard t U) hGS hnorm).trans hb
    refine ⟨G, ?_, fun w k => (cptGreen_spectral hn1 t k heta (hGd w) (hGu w)).1, ?_⟩
    · intro w G'
      constructor
      · intro h'
        exact clusterGreen_unique hadj (hz' w) h' (hG w)
      · rintro rfl
        exact hG w
    · intro hs1 hs2
      set ε := 2 * n * thr / eta ^ 2 with hε
      have hε0 : 0 ≤ ε := by positivity
      let Γ : Fin omegas.length → Matrix (Fin 2 × Fin n) (Fin 2 × Fin n) ℂ := fun w => Matrix.of fun a b =>
        (F.get (opA st (a.1, a.2), opC st (b.1, b.2))).getD 0 w
      have hΓ : ∀ w, ‖Γ w - G w‖ ≤ ε := by
        intro w
        obtain ⟨x, y, hx, hy, hrow⟩ := hsol w
        obtain ⟨g1, g2⟩ := sector_green hadj SB.nodup (fun s => (SP s).nodup) (fun s => (SH s).nodup) (fun s => (SP s).maps t U)
          (fun s => (SH s).maps t U) hC hA
          (fun s s' hs => (SP s).disjoint (SP s') (by
            obtain rfl | rfl : s = 0 ∨ s = 1 := by omega
            · obtain rfl : s' = 1 := by omega
              simp
            · obtain rfl : s' = 0 := by omega
              simp))
          (fun s s' hs => (SH s).disjoint (SH s') (by
            obtain rfl | rfl : s = 0 ∨ s = 1 := by omega
            · obtain rfl : s' = 1 := by omega
              simp
              omega
            · obtain rfl : s' = 0 := by omega
              simp
              omega)) (hz' w) hx hy (hG w)
        have := block_entries_norm (D := Γ w - G w) (δ := 2 * (thr / eta ^ 2)) (by positivity) (fun a b hab => by
            obtain ⟨a1, a2⟩ := a
            obtain ⟨b1, b2⟩ := b
            rw [Matrix.sub_apply, g2 a1 b1 a2 b2 hab, sub_zero]
            change (F.get (opA st (a1, a2), opC st (b1, b2))).getD 0 w = 0
            rw [hdiff a1 b1 hab a2 a2.2 b2 b2.2]
            rfl) (fun a b hab => by
            obtain ⟨a1, a2⟩ := a
            obtain ⟨b1, b2⟩ := b
            dsimp only at hab
            subst hab
            rw [Matrix.sub_apply, g1 a1 a2 b2]
            exact hrow a1 a2 a2.2 b2 b2.2)
        refine this.trans (le_of_eq ?_)
        rw [hε]
        ring
      have hstable := fun w k => Cpt.cpt_stable (G := G w) (D := Γ w - G w) (V := interCluster n t k) (v := 2 * |t|) (ε := ε) (hGd w) heta
        (hGu w) (interCluster_hermitian t k) (interCluster_norm t k) (hΓ w) (by
          have a1 := hGn w _ hb
          have a2 : ‖zOf (omegas.get w) eta‖ ≤ |omegas.get w| + eta := by
            unfold zOf
            refine (norm_add_le _ _).trans (le_of_eq ?_)
            rw [norm_mul, Complex.norm_I, one_mul, Complex.norm_real, Complex.norm_real, Real.norm_eq_abs, Real.norm_eq_abs,
              abs_of_pos heta]
          have a3 : ‖(G w)⁻¹‖ ≤ (|omegas.get w| + eta + 2 * ((|U| + 4 * |t|) * n)) ^ 2 / eta := by
            refine a1.trans ?_
            refine div_le_div_of_nonneg_right (pow_le_pow_left₀ ?_ ?_ 2) heta.le
            · have : 0 ≤ (|U| + 4 * |t|) * (n : ℝ) := by positivity
              have := norm_nonneg (zOf (omegas.get w) eta)
              have := abs_nonneg GE
              linarith
            · linarith
          refine lt_of_le_of_lt (mul_le_mul_of_nonneg_right a3 hε0) ?_
          rw [div_mul_eq_mul_div, div_lt_one heta]
          exact hs1 w) hs2
      simp only [add_sub_cancel] at hstable
      obtain ⟨R, hR, hk, hgf⟩ := cptFinish_ok (t := t) (Γ := Γ) (terms := terms) (table := table) hprec hst hn1 hc hL hdec hi hstep
        (D := F) (fun w a b => rfl) (fun w => (hstable w 0).1) (fun w k => (hstable w k).2.1)
      refine ⟨R, hscript _ ?_, hk, ?_⟩
      · rw [hF]
        exact hR
      · intro w i
        rw [hgf]
        refine (cptGreen_sub_le hn1 t _ _ _).trans ?_
        have := (hstable w ((-(1 / 2) + (i : ℕ) * step) * (2 * Real.pi))).2.2
        linarith

omit horder hporder hprec hp hz hc heig hthr hom heta hstep in
/-- **C93 (cluster perturbation theory without interaction).** For every size of the cluster and every normalised
eigenstate of the cluster without interaction, cluster perturbation theory gives the exact Green function of the infinite
chain, `1 / (z - 2 t cos k)` for each spin, at every complex frequency and momentum. -/
theorem C93_cpt_exact_without_interaction (hn : 1 ≤ n) {E : ℝ} {psi : Fock}
    (hpsi : hubbardHamiltonian n t 0 psi = (E : ℂ) • psi) (hone : fockInner psi psi = 1) {z : ℂ} (hz : z.im ≠ 0)
    {G : Matrix (Fin 2 × Fin n) (Fin 2 × Fin n) ℂ} (hG : IsClusterGreen n (hubbardHamiltonian n t 0) E psi z G) (k : ℝ) :
    cptGreen n t k G = 2 / (z - ((2 * t * Real.cos k : ℝ) : ℂ)) := by
  have h := free_green hz hpsi hone hG
  exact cptGreen_free hn t k hz h (free_isUnit t k hz h)

/-- **C93 (the script without interaction).** With `U = 0`, as in HubbardChain.py, and more Krylov vectors than sites, the
script returns the Green function `2 / (omega + i eta - 2 t cos k)` of the infinite chain, up to the error of C92. -/
theorem C93_script_band (hn : 2 ≤ n) (h64 : 2 * n ≤ 64) (hK : (n : ℤ) < K) :
    ∃ T V, hubbardTerms order porder (10 ^ p) coordOf prec n t 0 = some (.ok T) ∧
      hubbardSpace (10 ^ p) coordOf T.cluster.lat T.table T.terms (n / 2 : ℕ) (n / 2 : ℕ) = .ok V ∧
      ((∀ q < 2 * n, thr ^ 2 < occupation V.basis (eig V.basis.length V.HM).2 q ∧
          thr ^ 2 < 1 - occupation V.basis (eig V.basis.length V.HM).2 q) →
        (∀ w, (|omegas.get w| + eta + 8 * |t| * n) ^ 2 * (2 * n * thr / eta ^ 2) < eta) →
        2 * |t| * (2 * n * thr / eta ^ 2) * (1 + 2 * |t| / eta) ≤ 1 / 2 →
        ∃ R, scriptHubbard order porder (10 ^ p) coordOf prec eig thr K n t 0 step omegas eta g = some (.ok R) ∧
          R.kpts = (List.range ⌈(1 + step) / step⌉₊).map (fun i : ℕ => [(-(1 / 2) + i * step) * (2 * Real.pi)]) ∧
          ∀ w i, ‖R.gfs w i - 2 / ((omegas.get w : ℂ) + Complex.I * eta -
              ((2 * t * Real.cos ((-(1 / 2) + (i : ℕ) * step) * (2 * Real.pi)) : ℝ) : ℂ))‖ ≤
            4 * (2 * n * thr / eta ^ 2) * (1 + 2 * |t| / eta) ^ 2) := by
  obtain ⟨T, V, hT, hV, -, hgood⟩ := C92_cluster_perturbation order horder porder hporder hprec hp hz hc t 0 heig hthr hom heta
    hstep g hn h64 (.inl ⟨rfl, hK⟩)
  refine ⟨T, V, hT, hV, fun hocc hs1 hs2 => ?_⟩
  obtain ⟨G, hG, -, hR⟩ := hgood hocc
  obtain ⟨R, h1, h2, h3⟩ := hR (fun w => by
    have := hs1 w
    rw [abs_zero, zero_add]
    refine lt_of_le_of_lt (le_of_eq ?_) this
    ring) hs2
  refine ⟨R, h1, h2, fun w i => ?_⟩
  obtain ⟨st, hst⟩ : ∃ st, States (10 ^ p) coordOf n st := ⟨_, states_of_exact p hp hz hc⟩
  obtain ⟨L, inter, terms, table, hT', hL, -, -, hq, hH⟩ := hubbardTerms_ok horder hporder hprec hst (by omega : 1 ≤ n) h64 t 0
  rw [hT] at hT'
  cases hT'
  obtain ⟨B, hV', b1, b2, b3, b4, b5, b6⟩ := hubbardSpace_ok hst (by omega : 1 ≤ n) h64 hL hq hH (Nup := n / 2) (Ndown := n / 2)
    (by omega) (by omega)
  dsimp only at hV
  rw [hV] at hV'
  cases hV'
  have SB : SpinBasis n (n / 2) (n / 2) B := ⟨b1, b2, b3, b4, b5, b6⟩
  obtain ⟨hGS, hnorm⟩ := heig B.length (opMat B (hubbardHamiltonian n t 0)) (opMat_adj (isAdj_hubbard n t 0)) (List.length_pos_iff.2 b2)
  have e := C93_cpt_exact_without_interaction (n := n) t (by omega)
    (psi := stateOf B (eig B.length (opMat B (hubbardHamiltonian n t 0))).2) (E := (eig B.length (opMat B (hubbardHamiltonian n t 0))).1)
    (by rw [apply_stateOf SB.nodup SB.nodup (SB.maps t 0), ← opMat_eq_opMat2, hGS, stateOf_smul])
    (by rw [fockInner_stateOf SB.nodup, hnorm]) (z := (omegas.get w : ℂ) + Complex.I * eta)
    (by simp; exact heta.ne') ((hG w (G w)).2 rfl) ((-(1 / 2) + (i : ℕ) * step) * (2 * Real.pi))
  rw [← e]
  exact h3 w i

end

/-- The assumptions of C92 can be met with an interaction: two sites, `t = 1`, `U = 4`, a diagonaliser which returns
`(|ud, 0> - |0, ud>)/sqrt 2` of energy `U`, where every single-particle state is half filled. -/
example : ∃ (coordOf : ℝ → Coord) (eig : (N : ℕ) → Matrix (Fin N) (Fin N) ℂ → ℝ × Vec N)
    (G : Matrix (Fin 2 × Fin 2) (Fin 2 × Fin 2) ℂ) (psi : Fock) (R : Spectrum 1),
    hubbardHamiltonian 2 1 4 psi = (4 : ℂ) • psi ∧
    IsClusterGreen 2 (hubbardHamiltonian 2 1 4) 4 psi (((-2 : ℝ) : ℂ) + Complex.I * (0.05 : ℝ)) G ∧
    scriptHubbard (fun _ => id) (fun _ => id) (10 ^ 4) coordOf 4 eig (1 / 10 ^ 10) 200 2 1 4 0.01 [-2] 0.05
        (fun _ _ _ => 0) = some (.ok R) ∧
      ∀ i, ‖R.gfs 0 i - cptGreen 2 1 ((-(1 / 2) + (i : ℕ) * 0.01) * (2 * Real.pi)) G‖ ≤ 1 / 500 := by
  classical
  obtain ⟨eig0, heig0⟩ := eig_exists
  have hs : (1 / Real.sqrt 2) * (1 / Real.sqrt 2) = 1 / 2 := by
    rw [div_mul_div_comm, Real.mul_self_sqrt (by norm_num)]
    norm_num
  let v : Vec 4 := fun r => if (r : ℕ) = 0 then ((1 / Real.sqrt 2 : ℝ) : ℂ) else
    if (r : ℕ) = 3 then ((-(1 / Real.sqrt 2) : ℝ) : ℂ) else 0
  let M0 : Matrix (Fin 4) (Fin 4) ℂ := opMat [5, 6, 9, 10] (hubbardHamiltonian 2 1 4)
  have o5 : occ 5 = {0, 2} := by decide
  have o6 : occ 6 = {1, 2} := by decide
  have o9 : occ 9 = {0, 3} := by decide
  have o10 : occ 10 = {1, 3} := by decide
  have h1 : hubbardHamiltonian 2 1 4 (ket {0, 2}) = (4 : ℂ) • ket {0, 2} + (ket {1, 2} + ket {0, 3}) := by
    simp [hubbardHamiltonian, hopPair, Finset.sum_range_succ, annihilate_ket, create_ket, jwSign]
    rw [show ({0, 2} : Finset ℕ).erase 2 = {0} by decide,
      show (({0, 2} : Finset ℕ).filter fun x => x ≤ 1) = {0} by decide,
      show (({0} : Finset ℕ).filter fun x => x ≤ 1) = {0} by decide,
      show (({2} : Finset ℕ).filter fun x => x = 0) = ∅ by decide,
      show (({0} : Finset ℕ).filter fun x => x < 3) = {0} by decide,
      show (insert 3 {0} : Finset ℕ) = {0, 3} by decide]
    simp
  have h2 : hubbardHamiltonian 2 1 4 (ket {1, 3}) = (4 : ℂ) • ket {1, 3} + (ket {1, 2} + ket {0, 3}) := by
    simp [hubbardHamiltonian, hopPair, Finset.sum_range_succ, annihilate_ket, create_ket, jwSign]
    rw [show ({1, 3} : Finset ℕ).erase 3 = {1} by decide,
      show (({1, 3} : Finset ℕ).filter fun x => x < 3) = {1} by decide,
      show (({1, 3} : Finset ℕ).filter fun x => x = 0) = ∅ by decide,
      show (({3} : Finset ℕ).filter fun x => x = 0) = ∅ by decide,
      show (({1} : Finset ℕ).filter fun x => x < 3) = {1} by decide,
      show (({1} : Finset ℕ).filter fun x => x ≤ 1) = {1} by decide,
      show (insert 2 {1} : Finset ℕ) = {1, 2} by decide]
    simp
    abel
  have hv : M0 *ᵥ v = ((4 : ℝ) : ℂ) • v := by
    have e : ∀ r c : Fin 4, M0 r c = hubbardHamiltonian 2 1 4 (ket (occ ([5, 6, 9, 10][c]))) (occ ([5, 6, 9, 10][r])) := by
      intro r c
      rfl
    funext r
    change ∑ c, M0 r c * v c = 4 * v r
    simp only [e]
    rw [Fin.sum_univ_four]
    have k : ∀ S T : Finset ℕ, ket S T = if S = T then 1 else 0 := fun S T => Finsupp.single_apply
    have d1 : ({0, 2} : Finset ℕ) ≠ {1, 2} := by decide
    have d2 : ({0, 2} : Finset ℕ) ≠ {0, 3} := by decide
    have d3 : ({0, 2} : Finset ℕ) ≠ {1, 3} := by decide
    have d4 : ({1, 2} : Finset ℕ) ≠ {0, 3} := by decide
    have d5 : ({1, 2} : Finset ℕ) ≠ {1, 3} := by decide
    have d6 : ({0, 3} : Finset ℕ) ≠ {1, 3} := by decide
    fin_cases r <;> simp [v, o5, o6, o9, o10, h1, h2, k, d1, d2, d3, d4, d5, d6, d1.symm, d2.symm, d3.symm, d4.symm, d5.symm, d6.symm]
  have hvv : vdot v v = 1 := by
    change ∑ c, star (v c) * v c = 1
    rw [Fin.sum_univ_four]
    simp [v]
    rw [← Complex.ofReal_inv, ← Complex.ofReal_mul, ← one_div, hs]
    norm_num
  let eig : (N : ℕ) → Matrix (Fin N) (Fin N) ℂ → ℝ × Vec N := fun N M =>
    if h : ∃ e : N = 4, M = e ▸ M0 then (4, h.choose ▸ v) else eig0 N M
  have heig : ∀ N M, M.IsHermitian → 0 < N →
      M *ᵥ (eig N M).2 = ((eig N M).1 : ℂ) • (eig N M).2 ∧ vdot (eig N M).2 (eig N M).2 = 1 := by
    intro N M hM hN
    by_cases h : ∃ e : N = 4, M = e ▸ M0
    · have he : eig N M = (4, h.choose ▸ v) := dif_pos h
      rw [he]
      obtain ⟨rfl, rfl⟩ := h
      exact ⟨hv, hvv⟩
    · have he : eig N M = eig0 N M := dif_neg h
      rw [he]
      exact heig0 N M hM hN
  have he4 : eig 4 M0 = (4, v) := dif_pos ⟨rfl, rfl⟩
  obtain ⟨T, V, hT, hV, -, hgood⟩ := C92_cluster_perturbation (prec := 4) (p := 4) (n := 2) (fun _ => id)
    (fun _ l => List.Perm.refl l) (fun _ => id) (fun _ l => List.Perm.refl l) (by norm_num) (by norm_num)
    (by norm_num) (coordOf := fun x => .flt (.fin ⌊x⌋))
    (fun i _ => by simp) 1 4 heig (thr := 1 / 10 ^ 10) (by norm_num) (K := 200) (omegas := [-2]) (by simp)
    (eta := 0.05) (by norm_num) (step := 0.01) (by norm_num) (fun _ _ _ => 0) le_rfl (by norm_num) (.inr (by decide))
  obtain ⟨T', hT', -, hsp⟩ := C91_hamiltonian (prec := 4) (p := 4) (n := 2) (fun _ => id)
    (fun _ l => List.Perm.refl l) (fun _ => id) (fun _ l => List.Perm.refl l) (by norm_num) (by norm_num)
    (by norm_num) (coordOf := fun x => .flt (.fin ⌊x⌋))
    (fun i _ => by simp) 1 4 (by norm_num) (by norm_num)
  have hTT : T = T' := by simpa using hT.symm.trans hT'
  subst hTT
  obtain ⟨V', hV', hbas, hHM, -⟩ := hsp 1 1 (by norm_num) (by norm_num)
  have hVV : V = V' := by simpa using hV.symm.trans hV'
  subst hVV
  have hB : V.basis = [5, 6, 9, 10] := by
    have : baseVectors (spinSpecs 2 ((1 : ℕ) : ℤ) ((1 : ℕ) : ℤ)) = .ok [5, 6, 9, 10] := rfl
    rw [this] at hbas
    simpa using hbas.symm
  obtain ⟨tab, B, HM⟩ := V
  dsimp only at hB
  subst hB
  have hHM' : HM = M0 := by
    ext r c
    exact hHM r c
  subst hHM'
  have hlen : ([5, 6, 9, 10] : List ℕ).length = 4 := rfl
  dsimp only at hgood
  change (_ → ∃ G : Fin 1 → Matrix (Fin 2 × Fin 2) (Fin 2 × Fin 2) ℂ, _) at hgood
  obtain ⟨G, hG, -, hR⟩ := hgood (by
    intro q hq
    change (1 / 10 ^ 10 : ℝ) ^ 2 < occupation [5, 6, 9, 10] (eig 4 M0).2 q ∧ (1 / 10 ^ 10 : ℝ) ^ 2 < 1 - occupation [5, 6, 9, 10] (eig 4 M0).2 q
    rw [he4]
    have : occupation [5, 6, 9, 10] v q = 1 / 2 := by
      unfold occupation
      simp only [List.length_cons, List.length_nil]
      rw [Fin.sum_univ_four]
      obtain rfl | rfl | rfl | rfl : q = 0 ∨ q = 1 ∨ q = 2 ∨ q = 3 := by omega
      all_goals simp [v, o5, o6, o9, o10]
    rw [this]
    norm_num)
  obtain ⟨R, h1', -, h3⟩ := hR (by
      intro w
      have : ([-2] : List ℝ).get w = -2 := by
        exact List.mem_singleton.1 (List.get_mem _ w)
      rw [this]
      norm_num) (by norm_num)
  have hG0 := (hG 0 (G 0)).2 rfl
  change IsClusterGreen 2 (hubbardHamiltonian 2 1 4) (eig 4 M0).1 (stateOf [5, 6, 9, 10] (eig 4 M0).2) _ (G 0) at hG0
  rw [he4] at hG0
  refine ⟨_, eig, G 0, stateOf [5, 6, 9, 10] v, R, ?_, hG0, h1', fun i => (h3 0 i).trans ?_⟩
  · change hubbardHamiltonian 2 1 4 (∑ r : Fin 4, v r • ket (occ ([5, 6, 9, 10][r]))) = (4 : ℂ) • ∑ r : Fin 4, v r • ket (occ ([5, 6, 9, 10][r]))
    rw [Fin.sum_univ_four]
    simp [v, o5, o6, o9, o10, h1, h2]
    module
  · norm_num

/-- HubbardChain.py itself (twelve sites, `t = 1`, `U = 0`, default precisions and `krylov_space_dim`), at one frequency: the
script plots the band structure unless a single-particle state is empty or full. -/
example : ∃ (coordOf : ℝ → Coord) (eig : (N : ℕ) → Matrix (Fin N) (Fin N) ℂ → ℝ × Vec N) (T : HubbardTerms) (V : Setup),
    hubbardTerms (fun _ => id) (fun _ => id) (10 ^ 4) coordOf 4 12 1 0 = some (.ok T) ∧
    hubbardSpace (10 ^ 4) coordOf T.cluster.lat T.table T.terms 6 6 = .ok V ∧
    ((∀ q < 24, (1 / 10 ^ 10 : ℝ) ^ 2 < occupation V.basis (eig V.basis.length V.HM).2 q ∧
        (1 / 10 ^ 10 : ℝ) ^ 2 < 1 - occupation V.basis (eig V.basis.length V.HM).2 q) →
      ∃ R : Spectrum 1, scriptHubbard (fun _ => id) (fun _ => id) (10 ^ 4) coordOf 4 eig (1 / 10 ^ 10) 200 12 1 0 0.01 [-2] 0.05
        (fun _ _ _ => 0) = some (.ok R)) := by
  obtain ⟨eig, heig⟩ := eig_exists
  obtain ⟨T, V, hT, hV, hgood⟩ := C93_script_band (prec := 4) (p := 4) (n := 12) (fun _ => id)
    (fun _ l => List.Perm.refl l) (fun _ => id) (fun _ l => List.Perm.refl l) (by norm_num) (by norm_num)
    (by norm_num) (coordOf := fun x => .flt (.fin ⌊x⌋))
    (fun i _ => by simp) 1 heig (thr := 1 / 10 ^ 10) (by norm_num) (K := 200) (omegas := [-2]) (by simp)
    (eta := 0.05) (by norm_num) (step := 0.01) (by norm_num) (fun _ _ _ => 0) (by norm_num) (by norm_num) (by norm_num)
  refine ⟨_, eig, T, V, hT, hV, fun h => ?_⟩
  obtain ⟨R, hR, -⟩ := hgood h (by
      intro w
      have : ([-2] : List ℝ).get w = -2 := List.mem_singleton.1 (List.get_mem _ w)
      rw [this]
      norm_num) (by norm_num)
  exact ⟨R, hR⟩

end Verif.Demo
