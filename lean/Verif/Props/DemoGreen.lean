import Verif.Proofs.DemoSum
import Verif.Props.GreenSpectral
/-!
# C86: the spectrum computed by NNTBChain1.py
-/

namespace Verif.Demo

open Latt LDB Spec Matrix Lanczos GF

variable {prec : ℕ}

/-- **C86 (spectrum of NNTBChain1.py).** For every number of sites and species, every hopping `t`, all
frequencies and every broadening `eta != 0`, and for every routine `eig` that returns some eigenvalue of the
Hermitian matrix it is given with a normalised eigenvector (not necessarily that of the lowest eigenvalue):
the script finishes without error, its k-points are `2 pi i / n` for `i = 0, ..., n`, the Green function in
momentum space is the textbook `S / (omega + i eta - 2 t cos k)`, and the plotted spectrum is `S` times the
normalised Lorentzian of width `eta` centred at the band energy `2 t cos k`. -/
theorem C86_exact_spectrum (order : ∀ k : ℕ, List (Fin k → ℤ) → List (Fin k → ℤ))
    (horder : ∀ k l, (order k l).Perm l)
    (porder : ∀ N : ℕ, List (Fin N × Fin N) → List (Fin N × Fin N))
    (hporder : ∀ N l, (porder N l).Perm l) (hprec : 1 ≤ prec) {p n S : ℕ} (hp : p ≤ 22)
    (hz : 10 ^ p * n ≤ 2 ^ 53) (hn : 1 ≤ n) (hS : 1 ≤ S) (h64 : S * n ≤ 64) {coordOf : ℝ → Coord}
    (hc : ∀ i < n, coordOf (i : ℝ) = .flt (.fin i)) (t : ℝ)
    {eig : (N : ℕ) → Matrix (Fin N) (Fin N) ℂ → ℝ × Vec N}
    (heig : ∀ N M, M.IsHermitian → 0 < N →
      M *ᵥ (eig N M).2 = ((eig N M).1 : ℂ) • (eig N M).2 ∧ vdot (eig N M).2 (eig N M).2 = 1)
    (omegas : List ℝ) {eta : ℝ} (heta : eta ≠ 0) (g : Garbage omegas.length) :
    ∃ R, scriptExact order porder (10 ^ p) coordOf prec eig n ((List.range S).map fun s : ℕ => (s : ℤ)) t
        [.int (S * n : ℕ)] omegas eta g = some (.ok R) ∧
      R.kpts = (List.range (n + 1)).map (fun i : ℕ => [2 * Real.pi * i / n]) ∧
      ∀ (wi : Fin omegas.length) (i : Fin R.kpts.length),
        R.gfs wi i = S / ((omegas.get wi : ℂ) + Complex.I * eta -
          ((2 * t * Real.cos (2 * Real.pi * (i : ℕ) / n) : ℝ) : ℂ)) ∧
        R.spectrum wi i = S * ((eta / Real.pi) /
          ((omegas.get wi - 2 * t * Real.cos (2 * Real.pi * (i : ℕ) / n)) ^ 2 + eta ^ 2)) := by
  classical
  obtain ⟨subs, hk, hsub, hrep, hsp⟩ := ((C85_demo_bases hn).1 S hS h64).1
  obtain ⟨U, hU, hbas, htab, hHM⟩ := C85_hamiltonian order horder porder hporder hprec hp hz hn hS h64 hc t hk hsub
    hrep hsp
  obtain ⟨table, basis, HM⟩ := U
  have hUeq := setup_eq hbas hHM
  dsimp only at hbas htab hHM hUeq
  set B := List.range (2 ^ (S * n)) with hB
  rw [hUeq] at hU
  obtain ⟨st, hst⟩ : ∃ st, States (10 ^ p) coordOf n st := ⟨_, states_of_exact p hp hz hc⟩
  obtain ⟨L0, e1, e2, -⟩ := chain_lat (prec := prec) hprec hn (n1 := 1) (n2 := 1) le_rfl le_rfl
  have hBlen : 0 < B.length := by rw [hB, List.length_range]; positivity
  have hBasc : B.Pairwise (· < ·) := range_ascending _
  have hBnd : B.Nodup := List.nodup_range
  obtain ⟨hGS, hnorm⟩ := heig B.length _ (ring_hermitian B n S t) hBlen
  obtain ⟨GE, GS, hEG⟩ : ∃ GE GS, eig B.length (opMat B (ringHamiltonian n S t)) = (GE, GS) := ⟨_, _, rfl⟩
  rw [hEG] at hGS hnorm
  dsimp only at hGS hnorm
  have hfull : ∀ q < S * n, ∀ o, MapsTo (fockOf o q) B B := fun q hq o => mapsTo_full hq o
  obtain ⟨D, hD, hDval⟩ := gfsExact_ok (table := table) (B := B) (t := t) hst hn hS h64
    (fun s hs i hi => htab s hs i hi _ (hst.init_eq s i hi)) hBasc hfull GE GS omegas heta g
  obtain ⟨cell, hcell, hkp⟩ := kpoints_ok (prec := prec) hprec n
  have hops : clusterOperators (10 ^ p) coordOf prec n ((List.range S).map fun s : ℕ => (s : ℤ)) =
      .ok ((sites (List.range S) n).map fun p => (opA st p, opC st p)) := by
    unfold clusterOperators
    rw [e1]
    exact operators_ok hst (List.range S) e2
  have hscript : scriptExact order porder (10 ^ p) coordOf prec eig n ((List.range S).map fun s : ℕ => (s : ℤ)) t
      [.int (S * n : ℕ)] omegas eta g = some (.ok (kspaceGfs n
        ((List.range (n + 1)).map fun i : ℕ => [2 * Real.pi * i / n]) ⟨keysOf st n (List.range S), D⟩)) := by
    unfold scriptExact
    rw [hU]
    dsimp only [andThen]
    rw [hEG]
    dsimp only
    rw [hops]
    simp only [bind, Except.bind]
    rw [hD]
    dsimp only
    unfold finish
    rw [hcell]
    simp only [bind, Except.bind]
    rw [hkp]
    rfl
  have hclose : ∀ (wi : Fin omegas.length) (i : ℕ), _ := fun wi i =>
    sector_close (Ts := List.range S) (t := t) (GE := GE) (GS := GS) (omega := omegas.get wi) (δ := 0) hc hst hn
      List.nodup_range (fun s hs => List.mem_range.1 hs) hBnd hBnd hBnd
      (mapsTo_ring hn (hopClosed_of_speciesWise h64 hk hsub hrep hsp) t)
      (fun s hs j hj => hfull _ (site_lt (List.mem_range.1 hs) hj) .creation)
      (fun s hs j hj => hfull _ (site_lt (List.mem_range.1 hs) hj) .annihilation) hGS hnorm heta (D := D) (wi := wi) (by
        obtain ⟨x, y, hx, hy, hrow⟩ := hDval wi
        refine ⟨x, y, hx, hy, fun p hp q hq => ?_⟩
        obtain ⟨row, h1, h2⟩ := hrow p hp q hq
        exact ⟨row, h1, by rw [h2, sub_self, norm_zero]⟩) i
  refine ⟨_, hscript, rfl, fun wi i => ?_⟩
  have hgf : (kspaceGfs n ((List.range (n + 1)).map fun i : ℕ => [2 * Real.pi * i / n])
      (⟨keysOf st n (List.range S), D⟩ : GfDict omegas.length)).gfs wi i = S / ((omegas.get wi : ℂ) + Complex.I * eta -
          ((2 * t * Real.cos (2 * Real.pi * (i : ℕ) / n) : ℝ) : ℂ)) := by
    have h1 := hclose wi i
    rw [mul_zero] at h1
    have h2 := sub_eq_zero.1 (norm_le_zero_iff.1 h1)
    have hn0 : (n : ℂ) ≠ 0 := by exact_mod_cast (by omega : n ≠ 0)
    rw [kspace_value]
    dsimp only
    rw [h2, List.length_range]
    push_cast
    field_simp
  refine ⟨hgf, ?_⟩
  have := spectrum_close (N := S) (omega := omegas.get wi) (eta := eta)
    (e := 2 * t * Real.cos (2 * Real.pi * (i : ℕ) / n)) (δ := 0) (by rw [hgf, sub_self, norm_zero])
  rw [zero_div] at this
  exact sub_eq_zero.1 (abs_nonpos_iff.1 this)

open Classical in
/-- There are routines `eig` as assumed (any column of an eigenbasis). -/
theorem eig_exists : ∃ eig : (N : ℕ) → Matrix (Fin N) (Fin N) ℂ → ℝ × Vec N, ∀ N M, M.IsHermitian → 0 < N →
    M *ᵥ (eig N M).2 = ((eig N M).1 : ℂ) • (eig N M).2 ∧ vdot (eig N M).2 (eig N M).2 = 1 := by
  have h : ∀ (N : ℕ) (M : Matrix (Fin N) (Fin N) ℂ), ∃ e : ℝ × Vec N, M.IsHermitian → 0 < N →
      M *ᵥ e.2 = (e.1 : ℂ) • e.2 ∧ vdot e.2 e.2 = 1 := by
    intro N M
    by_cases hM : M.IsHermitian ∧ 0 < N
    · obtain ⟨V, E, h1, h2⟩ := C75_eigenbasis_exists hM.1
      refine ⟨(E ⟨0, hM.2⟩, fun r => V r ⟨0, hM.2⟩), fun _ _ => ⟨?_, ?_⟩⟩
      · exact h2 ⟨0, hM.2⟩
      · have := congrFun (congrFun h1 ⟨0, hM.2⟩) ⟨0, hM.2⟩
        rw [Matrix.mul_apply, Matrix.one_apply_eq] at this
        exact this
    · exact ⟨(0, 0), fun h1 h2 => absurd ⟨h1, h2⟩ hM⟩
  choose eig heig using h
  exact ⟨eig, heig⟩

/-- NNTBChain1.py itself (eight sites, `eta = 0.05`, default precisions): at `k = pi` and `omega = -2` the
script plots the height `20 / pi` of the Lorentzian. -/
example : ∃ (coordOf : ℝ → Coord) (eig : (N : ℕ) → Matrix (Fin N) (Fin N) ℂ → ℝ × Vec N) (R : Spectrum 1),
    scriptExact (fun _ => id) (fun _ => id) (10 ^ 4) coordOf 4 eig 8 [0] 1 [.int 8] [-2] 0.05 (fun _ _ _ => 0) =
      some (.ok R) ∧ ∃ i : Fin R.kpts.length, R.kpts.get i = [Real.pi] ∧ R.spectrum 0 i = 20 / Real.pi := by
  obtain ⟨eig, heig⟩ := eig_exists
  refine ⟨fun x => .flt (.fin ⌊x⌋), eig, ?_⟩
  obtain ⟨R, h1, h2, h3⟩ := C86_exact_spectrum (prec := 4) (p := 4) (n := 8) (S := 1) (fun _ => id)
    (fun _ l => List.Perm.refl l) (fun _ => id) (fun _ l => List.Perm.refl l) (by norm_num) (by norm_num)
    (by norm_num) (by norm_num) le_rfl (by norm_num) (coordOf := fun x => .flt (.fin ⌊x⌋))
    (fun i _ => by simp) 1 heig [-2] (eta := 0.05) (by norm_num) (fun _ _ _ => 0)
  have hlen : R.kpts.length = 9 := by rw [h2]; rfl
  have hi : ((4 : ℕ) : ℝ) = 4 := by norm_num
  have he : 2 * Real.pi * ((4 : ℕ) : ℝ) / ((8 : ℕ) : ℝ) = Real.pi := by push_cast; ring
  refine ⟨R, by simpa using h1, ⟨4, by omega⟩, ?_, ?_⟩
  · have : ∀ l : List (List ℝ), l = (List.range (8 + 1)).map (fun i : ℕ => [2 * Real.pi * i / (8 : ℕ)]) →
        ∀ h : 4 < l.length, l.get ⟨4, h⟩ = [Real.pi] := by
      rintro l rfl h
      rw [List.get_eq_getElem, List.getElem_map, List.getElem_range, he]
    exact this _ h2 _
  · have := (h3 0 ⟨4, by omega⟩).2
    rw [this, he, Real.cos_pi]
    norm_num
    have := Real.pi_ne_zero
    field_simp
    norm_num

end Verif.Demo
