import Verif.Proofs.DemoFinish
import Verif.Props.DemoGreen
/-!
# C87: the spectra computed by NNTBChain2.py, NNTBChain3.py and NNTBChain4.py
-/

namespace Verif.Demo

open Latt LDB Spec Matrix Lanczos GF

section

variable {prec : ℕ} (order : ∀ k : ℕ, List (Fin k → ℤ) → List (Fin k → ℤ))
    (horder : ∀ k l, (order k l).Perm l)
    (porder : ∀ N : ℕ, List (Fin N × Fin N) → List (Fin N × Fin N))
    (hporder : ∀ N l, (porder N l).Perm l) (hprec : 1 ≤ prec) {p n S : ℕ} (hp : p ≤ 22)
    (hz : 10 ^ p * n ≤ 2 ^ 53) (hn : 1 ≤ n) (hS : 1 ≤ S) {coordOf : ℝ → Coord}
    (hc : ∀ i < n, coordOf (i : ℝ) = .flt (.fin i)) (t : ℝ)
    {eig : (N : ℕ) → Matrix (Fin N) (Fin N) ℂ → ℝ × Vec N}
    (heig : ∀ N M, M.IsHermitian → 0 < N →
      M *ᵥ (eig N M).2 = ((eig N M).1 : ℂ) • (eig N M).2 ∧ vdot (eig N M).2 (eig N M).2 = 1)
    {thr : ℝ} (hthr : 0 ≤ thr) {K : ℤ} (hK : (n : ℤ) < K)
    {omegas : List ℝ} (hom : omegas ≠ []) {eta : ℝ} (heta : eta ≠ 0) (g : Garbage omegas.length)

include horder hporder hprec hp hz hn hS hc heig hthr hK hom heta

/-- **C87 (NNTBChain2.py).** For every number of sites and species, `krylov_space_dim > n` (the default is
200), every Lanczos threshold `thr >= 0`, all frequencies (at least one), `eta != 0` and every diagonaliser:
if no single-particle state is (up to `thr^2`) empty or full in the eigenstate found, the script finishes and
its Green function and spectrum differ from the band structure by at most `2 S^2 n thr / eta^2`; otherwise
`MultiKrylov` raises ValueError. -/
theorem C87_lanczos_spectrum (h64 : S * n ≤ 64) :
    ∃ U, chainSetup order porder (10 ^ p) coordOf prec n ((List.range S).map fun s : ℕ => (s : ℤ)) t
        [.int (S * n : ℕ)] = some (.ok U) ∧
      ((∀ q < S * n, thr ^ 2 < occupation U.basis (eig U.basis.length U.HM).2 q ∧
          thr ^ 2 < 1 - occupation U.basis (eig U.basis.length U.HM).2 q) →
        ∃ R, scriptLanczos order porder (10 ^ p) coordOf prec eig thr K n
            ((List.range S).map fun s : ℕ => (s : ℤ)) t [.int (S * n : ℕ)] omegas eta g = some (.ok R) ∧
          IsBandSpectrum n S t omegas eta (2 * S ^ 2 * n * thr / eta ^ 2) R) ∧
      ((∃ q < S * n, occupation U.basis (eig U.basis.length U.HM).2 q ≤ thr ^ 2 ∨
          1 - occupation U.basis (eig U.basis.length U.HM).2 q ≤ thr ^ 2) →
        scriptLanczos order porder (10 ^ p) coordOf prec eig thr K n
            ((List.range S).map fun s : ℕ => (s : ℤ)) t [.int (S * n : ℕ)] omegas eta g =
          some (.error .valueError)) := by
  classical
  obtain ⟨subs, hk, hsub, hrep, hsp⟩ := ((C85_demo_bases hn).1 S hS h64).1
  obtain ⟨st, hst⟩ : ∃ st, States (10 ^ p) coordOf n st := ⟨_, states_of_exact p hp hz hc⟩
  obtain ⟨table, hU, htab, hasc, hmap⟩ := setup_ok horder hporder hprec hp hz hn hS h64 hc t hk hsub hrep hsp hst
  set B := List.range (2 ^ (S * n)) with hB
  refine ⟨_, hU, ?_⟩
  have hBlen : 0 < B.length := by rw [hB, List.length_range]; positivity
  obtain ⟨hGS, hnorm⟩ := heig B.length _ (ring_hermitian B n S t) hBlen
  dsimp only
  obtain ⟨GE, GS, hEG⟩ : ∃ GE GS, eig B.length (opMat B (ringHamiltonian n S t)) = (GE, GS) := ⟨_, _, rfl⟩
  rw [hEG] at hGS hnorm ⊢
  dsimp only at hGS hnorm ⊢
  have hfull : ∀ q < S * n, ∀ o, MapsTo (fockOf o q) B B := fun q hq o => mapsTo_full hq o
  have hTs : ∀ s ∈ List.range S, s < S := fun s hs => List.mem_range.1 hs
  have hC : ∀ s ∈ List.range S, ∀ j < n, MapsTo (create (s * n + j)) B B :=
    fun s hs j hj => hfull _ (site_lt (hTs s hs) hj) .creation
  have hA : ∀ s ∈ List.range S, ∀ j < n, MapsTo (annihilate (s * n + j)) B B :=
    fun s hs j hj => hfull _ (site_lt (hTs s hs) hj) .annihilation
  obtain ⟨hgood, hbad⟩ := gfsLanczos_ok (Ts := List.range S) hst hn hTs List.nodup_range
    (by rw [Ne, List.range_eq_nil]; omega) h64 htab hasc (isAdj_ring n S t) hC hA
    (ring_smallC hn (hasc.imp fun h => h.ne) (hasc.imp fun h => h.ne) hmap hC hGS)
    (ring_smallA hn (hasc.imp fun h => h.ne) (hasc.imp fun h => h.ne) hmap hA hGS) hnorm hthr heta hn hK hom g
  have hops := clusterOperators_ok hprec hn hst (List.range S)
  have hscript : ∀ r, (do
      let D ← gfsLanczos (10 ^ p) thr K ⟨table, B, opMat B (ringHamiltonian n S t)⟩
        ((sites (List.range S) n).map fun p => (opA st p, opC st p)) GE GS omegas eta g
      finish prec n D) = r → scriptLanczos order porder (10 ^ p) coordOf prec eig thr K n
          ((List.range S).map fun s : ℕ => (s : ℤ)) t [.int (S * n : ℕ)] omegas eta g = some r := by
    rintro r rfl
    unfold scriptLanczos
    rw [hU]
    dsimp only [andThen]
    rw [hEG]
    dsimp only
    rw [hops]
    rfl
  have hsplit : ∀ q < S * n, ∃ s ∈ List.range S, ∃ i < n, q = s * n + i := by
    intro q hq
    refine ⟨q / n, List.mem_range.2 (Nat.div_lt_of_lt_mul (by rwa [mul_comm] at hq)), q % n, Nat.mod_lt _ hn, ?_⟩
    rw [mul_comm]
    exact (Nat.div_add_mod q n).symm
  constructor
  · intro hocc
    obtain ⟨D, hD, hclose⟩ := hgood fun s hs i hi => hocc _ (site_lt (hTs s hs) hi)
    obtain ⟨R, hR, hband⟩ := finish_close (prec := prec) (S := S) (t := t) (eta := eta) (D := ⟨keysOf st n (List.range S), D⟩)
      (err := 2 * S ^ 2 * n * thr / eta ^ 2) hprec hn (by
        intro wi i
        have := sector_close hc hst hn List.nodup_range hTs (hasc.imp fun h => h.ne) (hasc.imp fun h => h.ne)
          (hasc.imp fun h => h.ne) hmap hC hA hGS hnorm heta (hclose wi) i
        rw [List.length_range] at this
        refine this.trans (le_of_eq ?_)
        push_cast
        ring)
    refine ⟨R, hscript _ ?_, hband⟩
    rw [hD]
    exact hR
  · rintro ⟨q, hq, hle⟩
    obtain ⟨s, hs, i, hi, rfl⟩ := hsplit q hq
    refine hscript _ ?_
    rw [hbad ⟨s, hs, i, hi, hle⟩]
    rfl

/-- **C87 (NNTBChain3.py).** The same with a fixed total number `N` of particles and the Hilbert spaces with
`N - 1` and `N + 1` particles. -/
theorem C87_sectors_spectrum (h64 : S * n ≤ 64) {N : ℕ} (hN : 1 ≤ N) (hN' : N + 1 ≤ S * n) :
    ∃ U, chainSetup order porder (10 ^ p) coordOf prec n ((List.range S).map fun s : ℕ => (s : ℤ)) t
        [.list [.int (S * n : ℕ), .int N]] = some (.ok U) ∧
      ((∀ q < S * n, thr ^ 2 < occupation U.basis (eig U.basis.length U.HM).2 q ∧
          thr ^ 2 < 1 - occupation U.basis (eig U.basis.length U.HM).2 q) →
        ∃ R, scriptSectors order porder (10 ^ p) coordOf prec eig thr K n
            ((List.range S).map fun s : ℕ => (s : ℤ)) t [.list [.int (S * n : ℕ), .int N]]
            [.list [.int (S * n : ℕ), .int ((N : ℤ) - 1)]] [.list [.int (S * n : ℕ), .int ((N : ℤ) + 1)]]
            omegas eta g = some (.ok R) ∧
          IsBandSpectrum n S t omegas eta (2 * S ^ 2 * n * thr / eta ^ 2) R) ∧
      ((∃ q < S * n, occupation U.basis (eig U.basis.length U.HM).2 q ≤ thr ^ 2 ∨
          1 - occupation U.basis (eig U.basis.length U.HM).2 q ≤ thr ^ 2) →
        scriptSectors order porder (10 ^ p) coordOf prec eig thr K n
            ((List.range S).map fun s : ℕ => (s : ℤ)) t [.list [.int (S * n : ℕ), .int N]]
            [.list [.int (S * n : ℕ), .int ((N : ℤ) - 1)]] [.list [.int (S * n : ℕ), .int ((N : ℤ) + 1)]]
            omegas eta g = some (.error .valueError)) := by
  classical
  have hSn : 1 ≤ S * n := by omega
  have e1 : (N : ℤ) - 1 = ((N - 1 : ℕ) : ℤ) := by omega
  have e2 : (N : ℤ) + 1 = ((N + 1 : ℕ) : ℤ) := by omega
  rw [e1, e2]
  obtain ⟨hsub, hrep, B, hk, hne⟩ := total_base hSn (N := N) (by omega) h64
  obtain ⟨hsubH, hrepH, Bh, hkH, hneH⟩ := total_base hSn (N := N - 1) (by omega) h64
  obtain ⟨hsubP, hrepP, Bp, hkP, hneP⟩ := total_base hSn (N := N + 1) hN' h64
  obtain ⟨st, hst⟩ : ∃ st, States (10 ^ p) coordOf n st := ⟨_, states_of_exact p hp hz hc⟩
  obtain ⟨table, hU, htab, hasc, hmap⟩ := setup_ok horder hporder hprec hp hz hn hS h64 hc t hk hsub hrep
    (speciesWise_total _) hst
  obtain ⟨tableH, hUh, -, hascH, -⟩ := setup_ok horder hporder hprec hp hz hn hS h64 hc t hkH hsubH hrepH
    (speciesWise_total _) hst
  obtain ⟨tableP, hUp, -, hascP, -⟩ := setup_ok horder hporder hprec hp hz hn hS h64 hc t hkP hsubP hrepP
    (speciesWise_total _) hst
  refine ⟨_, hU, ?_⟩
  have hBlen : 0 < B.length := List.length_pos_iff.2 hne
  obtain ⟨hGS, hnorm⟩ := heig B.length _ (ring_hermitian B n S t) hBlen
  dsimp only
  obtain ⟨GE, GS, hEG⟩ : ∃ GE GS, eig B.length (opMat B (ringHamiltonian n S t)) = (GE, GS) := ⟨_, _, rfl⟩
  rw [hEG] at hGS hnorm ⊢
  dsimp only at hGS hnorm ⊢
  have hTs : ∀ s ∈ List.range S, s < S := fun s hs => List.mem_range.1 hs
  have hC : ∀ s ∈ List.range S, ∀ j < n, MapsTo (create (s * n + j)) B Bp := by
    intro s hs j hj
    have hlt := List.mem_range.2 (site_lt (hTs s hs) hj)
    refine mapsTo_single hk hsub hrep hkP hsubP hrepP .creation ⟨_, List.mem_singleton_self _, hlt⟩
      (by simp) ?_
    intro s' hs' M hM _
    rw [List.mem_singleton] at hs'
    subst hs'
    refine ⟨N, by omega, by simp, ?_⟩
    rw [if_neg (by simp), if_pos ⟨rfl, hlt⟩]
    cases hM
    omega
  have hA : ∀ s ∈ List.range S, ∀ j < n, MapsTo (annihilate (s * n + j)) B Bh := by
    intro s hs j hj
    have hlt := List.mem_range.2 (site_lt (hTs s hs) hj)
    refine mapsTo_single hk hsub hrep hkH hsubH hrepH .annihilation ⟨_, List.mem_singleton_self _, hlt⟩
      (by simp) ?_
    intro s' hs' M hM _
    rw [List.mem_singleton] at hs'
    subst hs'
    refine ⟨N, by omega, by simp, ?_⟩
    rw [if_pos ⟨rfl, hlt⟩, if_neg (by simp)]
    cases hM
    omega
  obtain ⟨hgood, hbad⟩ := gfsSectors_ok (Ts := List.range S) (tableH := tableH) (tableP := tableP)
    (HM0 := opMat B (ringHamiltonian n S t)) hst hn hTs List.nodup_range
    (by rw [Ne, List.range_eq_nil]; omega) h64 htab (hasc.imp fun h => h.ne) hascP hascH hneP hneH (isAdj_ring n S t) hC hA
    (ring_smallC hn (hasc.imp fun h => h.ne) (hascP.imp fun h => h.ne) hmap hC hGS)
    (ring_smallA hn (hasc.imp fun h => h.ne) (hascH.imp fun h => h.ne) hmap hA hGS) hnorm hthr heta hn hK hom g
  have hops := clusterOperators_ok hprec hn hst (List.range S)
  have hscript : ∀ r, (do
      let D ← gfsSectors (10 ^ p) thr K ⟨table, B, opMat B (ringHamiltonian n S t)⟩
        ⟨tableH, Bh, opMat Bh (ringHamiltonian n S t)⟩ ⟨tableP, Bp, opMat Bp (ringHamiltonian n S t)⟩
        ((sites (List.range S) n).map fun p => (opA st p, opC st p)) GE GS omegas eta g
      finish prec n D) = r → scriptSectors order porder (10 ^ p) coordOf prec eig thr K n
          ((List.range S).map fun s : ℕ => (s : ℤ)) t [.list [.int (S * n : ℕ), .int N]]
          [.list [.int (S * n : ℕ), .int (N - 1 : ℕ)]] [.list [.int (S * n : ℕ), .int (N + 1 : ℕ)]]
          omegas eta g = some r := by
    rintro r rfl
    unfold scriptSectors
    rw [hU, hUh, hUp]
    dsimp only [andThen]
    rw [hEG]
    dsimp only
    rw [hops]
    rfl
  have hsplit : ∀ q < S * n, ∃ s ∈ List.range S, ∃ i < n, q = s * n + i := by
    intro q hq
    refine ⟨q / n, List.mem_range.2 (Nat.div_lt_of_lt_mul (by rwa [mul_comm] at hq)), q % n, Nat.mod_lt _ hn, ?_⟩
    rw [mul_comm]
    exact (Nat.div_add_mod q n).symm
  constructor
  · intro hocc
    obtain ⟨D, hD, -, hclose⟩ := hgood fun s hs i hi => hocc _ (site_lt (hTs s hs) hi)
    obtain ⟨R, hR, hband⟩ := finish_close (prec := prec) (S := S) (t := t) (eta := eta) (D := ⟨keysOf st n (List.range S), D⟩)
      (err := 2 * S ^ 2 * n * thr / eta ^ 2) hprec hn (by
        intro wi i
        have := sector_close hc hst hn List.nodup_range hTs (hasc.imp fun h => h.ne) (hascP.imp fun h => h.ne)
          (hascH.imp fun h => h.ne) hmap hC hA hGS hnorm heta (hclose wi) i
        rw [List.length_range] at this
        refine this.trans (le_of_eq ?_)
        push_cast
        ring)
    refine ⟨R, hscript _ ?_, hband⟩
    rw [hD]
    exact hR
  · rintro ⟨q, hq, hle⟩
    obtain ⟨s, hs, i, hi, rfl⟩ := hsplit q hq
    refine hscript _ ?_
    rw [hbad ⟨s, hs, i, hi, hle⟩]
    rfl

omit hS in
/-- **C87 (NNTBChain4.py).** The same with fixed numbers of particles for both spins, each spin with its own
Hilbert spaces; the error is at most `4 n thr / eta^2`. -/
theorem C87_spins_spectrum (h64 : 2 * n ≤ 64) {Nup Ndown : ℕ} (hup : 1 ≤ Nup) (hup' : Nup + 1 ≤ n)
    (hdown : 1 ≤ Ndown) (hdown' : Ndown + 1 ≤ n) {specsH specsP : ℤ → List HVal}
    (hspecsH : ∀ s, specsH s =
      if s = 1 then spinSpecs n ((Nup : ℤ) - 1) Ndown else spinSpecs n Nup ((Ndown : ℤ) - 1))
    (hspecsP : ∀ s, specsP s =
      if s = 1 then spinSpecs n ((Nup : ℤ) + 1) Ndown else spinSpecs n Nup ((Ndown : ℤ) + 1)) :
    ∃ U, chainSetup order porder (10 ^ p) coordOf prec n [0, 1] t (spinSpecs n Nup Ndown) = some (.ok U) ∧
      ((∀ q < 2 * n, thr ^ 2 < occupation U.basis (eig U.basis.length U.HM).2 q ∧
          thr ^ 2 < 1 - occupation U.basis (eig U.basis.length U.HM).2 q) →
        ∃ R, scriptSpins order porder (10 ^ p) coordOf prec eig thr K n [0, 1] t (spinSpecs n Nup Ndown)
            specsH specsP omegas eta g = some (.ok R) ∧
          IsBandSpectrum n 2 t omegas eta (4 * n * thr / eta ^ 2) R) ∧
      ((∃ q < 2 * n, occupation U.basis (eig U.basis.length U.HM).2 q ≤ thr ^ 2 ∨
          1 - occupation U.basis (eig U.basis.length U.HM).2 q ≤ thr ^ 2) →
        scriptSpins order porder (10 ^ p) coordOf prec eig thr K n [0, 1] t (spinSpecs n Nup Ndown)
            specsH specsP omegas eta g = some (.error .valueError)) := by
  classical
  have hS : 1 ≤ 2 := by norm_num
  have u1 : (Nup : ℤ) - 1 = ((Nup - 1 : ℕ) : ℤ) := by omega
  have u2 : (Nup : ℤ) + 1 = ((Nup + 1 : ℕ) : ℤ) := by omega
  have d1 : (Ndown : ℤ) - 1 = ((Ndown - 1 : ℕ) : ℤ) := by omega
  have d2 : (Ndown : ℤ) + 1 = ((Ndown + 1 : ℕ) : ℤ) := by omega
  obtain ⟨hsub, hrep, hsp, B, hk, hne⟩ := spin_base (n := n) (Nup := Nup) (Ndown := Ndown) hn h64 (by omega) (by omega)
  obtain ⟨hsubH1, hrepH1, hspH1, Bh1, hkH1, hneH1⟩ := spin_base (n := n) (Nup := Nup - 1) (Ndown := Ndown) hn h64 (by omega) (by omega)
  obtain ⟨hsubP1, hrepP1, hspP1, Bp1, hkP1, hneP1⟩ := spin_base (n := n) (Nup := Nup + 1) (Ndown := Ndown) hn h64 (by omega) (by omega)
  obtain ⟨hsubH0, hrepH0, hspH0, Bh0, hkH0, hneH0⟩ := spin_base (n := n) (Nup := Nup) (Ndown := Ndown - 1) hn h64 (by omega) (by omega)
  obtain ⟨hsubP0, hrepP0, hspP0, Bp0, hkP0, hneP0⟩ := spin_base (n := n) (Nup := Nup) (Ndown := Ndown + 1) hn h64 (by omega) (by omega)
  obtain ⟨st, hst⟩ : ∃ st, States (10 ^ p) coordOf n st := ⟨_, states_of_exact p hp hz hc⟩
  obtain ⟨table, hU, htab, hasc, hmap⟩ := setup_ok horder hporder hprec hp hz hn hS h64 hc t hk hsub hrep hsp hst
  obtain ⟨tH1, hUh1, -, hascH1, -⟩ := setup_ok horder hporder hprec hp hz hn hS h64 hc t hkH1 hsubH1 hrepH1 hspH1 hst
  obtain ⟨tP1, hUp1, -, hascP1, -⟩ := setup_ok horder hporder hprec hp hz hn hS h64 hc t hkP1 hsubP1 hrepP1 hspP1 hst
  obtain ⟨tH0, hUh0, -, hascH0, -⟩ := setup_ok horder hporder hprec hp hz hn hS h64 hc t hkH0 hsubH0 hrepH0 hspH0 hst
  obtain ⟨tP0, hUp0, -, hascP0, -⟩ := setup_ok horder hporder hprec hp hz hn hS h64 hc t hkP0 hsubP0 hrepP0 hspP0 hst
  have hspins : ((List.range 2).map fun s : ℕ => (s : ℤ)) = [0, 1] := rfl
  rw [hspins] at hU hUh1 hUp1 hUh0 hUp0
  refine ⟨_, hU, ?_⟩
  have hBlen : 0 < B.length := List.length_pos_iff.2 hne
  obtain ⟨hGS, hnorm⟩ := heig B.length _ (ring_hermitian B n 2 t) hBlen
  dsimp only
  obtain ⟨GE, GS, hEG⟩ : ∃ GE GS, eig B.length (opMat B (ringHamiltonian n 2 t)) = (GE, GS) := ⟨_, _, rfl⟩
  rw [hEG] at hGS hnorm ⊢
  dsimp only at hGS hnorm ⊢
  have hupM : ∀ j < n, n + j ∈ (List.range n).map fun i : ℕ => n + i := fun j hj =>
    List.mem_map.2 ⟨j, List.mem_range.2 hj, rfl⟩
  have hupN : ∀ j < n, j ∉ (List.range n).map fun i : ℕ => n + i := fun j hj h => by
    obtain ⟨a, -, he⟩ := List.mem_map.1 h
    omega
  have hC1 : ∀ s ∈ [1], ∀ j < n, MapsTo (create (s * n + j)) B Bp1 := by
    intro s hs j hj
    rw [List.mem_singleton] at hs
    subst hs
    rw [one_mul]
    refine mapsTo_single hk hsub hrep hkP1 hsubP1 hrepP1 .creation ⟨_, List.mem_cons_self, hupM j hj⟩
      (by simp) ?_
    intro s' hs' M hM _
    simp only [List.mem_cons, List.not_mem_nil, or_false] at hs'
    rcases hs' with rfl | rfl
    · refine ⟨Nup, by omega, by simp, ?_⟩
      rw [if_neg (by simp), if_pos ⟨rfl, hupM j hj⟩]
      cases hM
      omega
    · refine ⟨Ndown, by omega, by simp, ?_⟩
      rw [if_neg (by simp), if_neg (by simp)]
      cases hM
      omega
  have hA1 : ∀ s ∈ [1], ∀ j < n, MapsTo (annihilate (s * n + j)) B Bh1 := by
    intro s hs j hj
    rw [List.mem_singleton] at hs
    subst hs
    rw [one_mul]
    refine mapsTo_single hk hsub hrep hkH1 hsubH1 hrepH1 .annihilation ⟨_, List.mem_cons_self, hupM j hj⟩
      (by simp) ?_
    intro s' hs' M hM _
    simp only [List.mem_cons, List.not_mem_nil, or_false] at hs'
    rcases hs' with rfl | rfl
    · refine ⟨Nup, by omega, by simp, ?_⟩
      rw [if_pos ⟨rfl, hupM j hj⟩, if_neg (by simp)]
      cases hM
      omega
    · refine ⟨Ndown, by omega, by simp, ?_⟩
      rw [if_neg (by simp), if_neg (by simp)]
      cases hM
      omega
  have hC0 : ∀ s ∈ [0], ∀ j < n, MapsTo (create (s * n + j)) B Bp0 := by
    intro s hs j hj
    rw [List.mem_singleton] at hs
    subst hs
    rw [zero_mul, zero_add]
    refine mapsTo_single hk hsub hrep hkP0 hsubP0 hrepP0 .creation
      ⟨_, List.mem_cons_of_mem _ List.mem_cons_self, List.mem_range.2 hj⟩ (by simp) ?_
    intro s' hs' M hM _
    simp only [List.mem_cons, List.not_mem_nil, or_false] at hs'
    rcases hs' with rfl | rfl
    · refine ⟨Nup, by omega, by simp, ?_⟩
      rw [if_neg (by simp), if_neg fun h => hupN j hj h.2]
      cases hM
      omega
    · refine ⟨Ndown, by omega, by simp, ?_⟩
      rw [if_neg (by simp), if_pos ⟨rfl, List.mem_range.2 hj⟩]
      cases hM
      omega
  have hA0 : ∀ s ∈ [0], ∀ j < n, MapsTo (annihilate (s * n + j)) B Bh0 := by
    intro s hs j hj
    rw [List.mem_singleton] at hs
    subst hs
    rw [zero_mul, zero_add]
    refine mapsTo_single hk hsub hrep hkH0 hsubH0 hrepH0 .annihilation
      ⟨_, List.mem_cons_of_mem _ List.mem_cons_self, List.mem_range.2 hj⟩ (by simp) ?_
    intro s' hs' M hM _
    simp only [List.mem_cons, List.not_mem_nil, or_false] at hs'
    rcases hs' with rfl | rfl
    · refine ⟨Nup, by omega, by simp, ?_⟩
      rw [if_neg fun h => hupN j hj h.2, if_neg (by simp)]
      cases hM
      omega
    · refine ⟨Ndown, by omega, by simp, ?_⟩
      rw [if_pos ⟨rfl, List.mem_range.2 hj⟩, if_neg (by simp)]
      cases hM
      omega
  have hT0 : ∀ s ∈ [0], s < 2 := by simp
  have hT1 : ∀ s ∈ [1], s < 2 := by simp
  have hBn : B.Nodup := hasc.imp fun h => h.ne
  obtain ⟨hgood0, hbad0⟩ := gfsSectors_ok (Ts := [0]) (tableH := tH0) (tableP := tP0)
    (HM0 := opMat B (ringHamiltonian n 2 t)) hst hn hT0 (List.nodup_singleton _) (by simp) h64 htab hBn hascP0 hascH0 hneP0
    hneH0 (isAdj_ring n 2 t) hC0 hA0
    (ring_smallC hn hBn (hascP0.imp fun h => h.ne) hmap hC0 hGS)
    (ring_smallA hn hBn (hascH0.imp fun h => h.ne) hmap hA0 hGS) hnorm hthr heta hn hK hom g
  obtain ⟨hgood1, hbad1⟩ := gfsSectors_ok (Ts := [1]) (tableH := tH1) (tableP := tP1)
    (HM0 := opMat B (ringHamiltonian n 2 t)) hst hn hT1 (List.nodup_singleton _) (by simp) h64 htab hBn hascP1 hascH1 hneP1
    hneH1 (isAdj_ring n 2 t) hC1 hA1
    (ring_smallC hn hBn (hascP1.imp fun h => h.ne) hmap hC1 hGS)
    (ring_smallA hn hBn (hascH1.imp fun h => h.ne) hmap hA1 hGS) hnorm hthr heta hn hK hom g
  have hops0 := clusterOperators_ok hprec hn hst [0]
  have hops1 := clusterOperators_ok hprec hn hst [1]
  rw [show ([0] : List ℕ).map (fun s : ℕ => (s : ℤ)) = [0] from rfl] at hops0
  rw [show ([1] : List ℕ).map (fun s : ℕ => (s : ℤ)) = [1] from rfl] at hops1
  have hscript : ∀ r, andThen (some (gfsSectors (10 ^ p) thr K ⟨table, B, opMat B (ringHamiltonian n 2 t)⟩
        ⟨tH0, Bh0, opMat Bh0 (ringHamiltonian n 2 t)⟩ ⟨tP0, Bp0, opMat Bp0 (ringHamiltonian n 2 t)⟩
        ((sites [0] n).map fun p => (opA st p, opC st p)) GE GS omegas eta g)) (fun E0 =>
      andThen (some (gfsSectors (10 ^ p) thr K ⟨table, B, opMat B (ringHamiltonian n 2 t)⟩
        ⟨tH1, Bh1, opMat Bh1 (ringHamiltonian n 2 t)⟩ ⟨tP1, Bp1, opMat Bp1 (ringHamiltonian n 2 t)⟩
        ((sites [1] n).map fun p => (opA st p, opC st p)) GE GS omegas eta g)) (fun E1 =>
        some (finish prec n (((⟨[], fun _ => none⟩ : GfDict omegas.length).update E0).update E1)))) = r →
      scriptSpins order porder (10 ^ p) coordOf prec eig thr K n [0, 1] t (spinSpecs n Nup Ndown)
            specsH specsP omegas eta g = r := by
    rintro r rfl
    unfold scriptSpins
    rw [hU]
    dsimp only [andThen]
    rw [hEG]
    dsimp only
    unfold spinLoop
    rw [hspecsH, hspecsP, if_neg (by norm_num), if_neg (by norm_num), d1, d2, hUh0, hUp0]
    dsimp only [andThen]
    rw [hops0]
    simp only [bind, Except.bind]
    generalize hg0 : gfsSectors (10 ^ p) thr K ⟨table, B, opMat B (ringHamiltonian n 2 t)⟩
        ⟨tH0, Bh0, opMat Bh0 (ringHamiltonian n 2 t)⟩ ⟨tP0, Bp0, opMat Bp0 (ringHamiltonian n 2 t)⟩
        ((sites [0] n).map fun p => (opA st p, opC st p)) GE GS omegas eta g = G0
    cases G0 with
    | error e => rfl
    | ok E0 =>
      dsimp only
      unfold spinLoop
      rw [hspecsH, hspecsP, if_pos rfl, if_pos rfl, u1, u2, hUh1, hUp1]
      dsimp only [andThen]
      rw [hops1]
      simp only [bind, Except.bind]
      generalize hg1 : gfsSectors (10 ^ p) thr K ⟨table, B, opMat B (ringHamiltonian n 2 t)⟩
        ⟨tH1, Bh1, opMat Bh1 (ringHamiltonian n 2 t)⟩ ⟨tP1, Bp1, opMat Bp1 (ringHamiltonian n 2 t)⟩
        ((sites [1] n).map fun p => (opA st p, opC st p)) GE GS omegas eta g = G1
      cases G1 with
      | error e => rfl
      | ok E1 => rfl
  constructor
  · intro hocc
    obtain ⟨D0, hD0, hout0, hclose0⟩ := hgood0 fun s hs i hi => hocc _ (site_lt (hT0 s hs) hi)
    obtain ⟨D1, hD1, hout1, hclose1⟩ := hgood1 fun s hs i hi => hocc _ (site_lt (hT1 s hs) hi)
    set F : GfDict omegas.length := ((⟨[], fun _ => none⟩ : GfDict omegas.length).update
      ⟨keysOf st n [0], D0⟩).update ⟨keysOf st n [1], D1⟩ with hF
    have hFget : ∀ key, F.get key = (D1 key).orElse fun _ => (D0 key).orElse fun _ => none := fun key => rfl
    have hFkeys : F.keys = keysOf st n [0] ++ keysOf st n [1] := by
      have n0 : (keysOf st n [0]).Nodup :=
        keys_nodup hst (nodup_sites (List.nodup_singleton _)) fun p hp => (mem_sites.1 hp).2
      have n1 : (keysOf st n [1]).Nodup :=
        keys_nodup hst (nodup_sites (List.nodup_singleton _)) fun p hp => (mem_sites.1 hp).2
      have e0 : ((⟨[], fun _ => none⟩ : GfDict omegas.length).update ⟨keysOf st n [0], D0⟩).keys = keysOf st n [0] :=
        firstOccurrences_nodup n0
      change firstOccurrences (((⟨[], fun _ => none⟩ : GfDict omegas.length).update ⟨keysOf st n [0], D0⟩).keys ++
        keysOf st n [1]) = _
      rw [e0]
      refine firstOccurrences_nodup (List.nodup_append.2 ⟨n0, n1, ?_⟩)
      rintro a ha b hb rfl
      obtain ⟨A, hA, ha⟩ := List.mem_flatMap.1 ha
      obtain ⟨q, hq, rfl⟩ := List.mem_map.1 hA
      obtain ⟨c, -, rfl⟩ := List.mem_map.1 ha
      obtain ⟨A', hA', hb⟩ := List.mem_flatMap.1 hb
      obtain ⟨q', hq', rfl⟩ := List.mem_map.1 hA'
      obtain ⟨c', -, he⟩ := List.mem_map.1 hb
      have := (opA_inj hst (mem_sites.1 hq').2 (mem_sites.1 hq).2).1 (Prod.mk.inj he).1
      subst this
      have h1 := (mem_sites.1 hq).1
      have h2 := (mem_sites.1 hq').1
      rw [List.mem_singleton] at h1 h2
      omega
    have hc0 : CloseDict n (ringHamiltonian n 2 t) st [0] B Bp0 Bh0 GE GS omegas eta (2 * (thr / eta ^ 2)) F.get := by
      intro wi
      obtain ⟨x, y, hx, hy, hrow⟩ := hclose0 wi
      refine ⟨x, y, hx, hy, fun p hp q hq => ?_⟩
      obtain ⟨row, h1, h2⟩ := hrow p hp q hq
      refine ⟨row, ?_, h2⟩
      rw [hFget, h1]
      have hnone : D1 (opA st p, opC st q) = none := by
        by_contra hsome
        obtain ⟨q', hq', he⟩ := (hout1 _ _ hsome).1
        have := (opA_inj hst (mem_sites.1 hp).2 (mem_sites.1 hq').2).1 he
        subst this
        have h1 := (mem_sites.1 hp).1
        have h2 := (mem_sites.1 hq').1
        rw [List.mem_singleton] at h1 h2
        omega
      rw [hnone]
      rfl
    have hc1 : CloseDict n (ringHamiltonian n 2 t) st [1] B Bp1 Bh1 GE GS omegas eta (2 * (thr / eta ^ 2)) F.get := by
      intro wi
      obtain ⟨x, y, hx, hy, hrow⟩ := hclose1 wi
      refine ⟨x, y, hx, hy, fun p hp q hq => ?_⟩
      obtain ⟨row, h1, h2⟩ := hrow p hp q hq
      refine ⟨row, ?_, h2⟩
      rw [hFget, h1]
      rfl
    obtain ⟨R, hR, hband⟩ := finish_close (prec := prec) (S := 2) (t := t) (eta := eta) (D := F)
      (err := 4 * n * thr / eta ^ 2) hprec hn (by
        intro wi i
        have a0 := sector_close hc hst hn (List.nodup_singleton _) hT0 hBn (hascP0.imp fun h => h.ne)
          (hascH0.imp fun h => h.ne) hmap hC0 hA0 hGS hnorm heta (hc0 wi) i
        have a1 := sector_close hc hst hn (List.nodup_singleton _) hT1 hBn (hascP1.imp fun h => h.ne)
          (hascH1.imp fun h => h.ne) hmap hC1 hA1 hGS hnorm heta (hc1 wi) i
        rw [hFkeys, List.map_append, List.sum_append]
        rw [List.length_singleton, one_mul] at a0 a1
        generalize ((omegas.get wi : ℂ) + Complex.I * eta -
          ((2 * t * Real.cos (2 * Real.pi * i / n) : ℝ) : ℂ)) = Z at a0 a1 ⊢
        generalize ((keysOf st n [0]).map fun p => (F.get p).getD 0 wi * phaseFactor [2 * Real.pi * i / n] p.1 p.2).sum
          = X at a0 ⊢
        generalize ((keysOf st n [1]).map fun p => (F.get p).getD 0 wi * phaseFactor [2 * Real.pi * i / n] p.1 p.2).sum
          = Y at a1 ⊢
        have e : X + Y - ((2 * n : ℕ) : ℂ) / Z = (X - (n : ℂ) / Z) + (Y - (n : ℂ) / Z) := by
          push_cast
          ring
        rw [e]
        refine (norm_add_le _ _).trans ((add_le_add a0 a1).trans (le_of_eq ?_))
        ring)
    refine ⟨R, hscript _ ?_, hband⟩
    rw [hD0, hD1]
    dsimp only [andThen]
    rw [hR]
  · rintro ⟨q, hq, hle⟩
    refine hscript _ ?_
    by_cases hqn : q < n
    · rw [hbad0 ⟨0, List.mem_singleton_self _, q, hqn, by rwa [zero_mul, zero_add]⟩]
      rfl
    · have hb1 := hbad1 ⟨1, List.mem_singleton_self _, q - n, by omega, by
        rw [one_mul, show n + (q - n) = q by omega]; exact hle⟩
      rw [hb1]
      by_cases h0 : ∃ s ∈ [0], ∃ i < n, occupation B GS (s * n + i) ≤ thr ^ 2 ∨ 1 - occupation B GS (s * n + i) ≤ thr ^ 2
      · rw [hbad0 h0]
        rfl
      · push Not at h0
        obtain ⟨D0, hD0, -⟩ := hgood0 h0
        rw [hD0]
        rfl

end

/-- The assumptions can be met and the first alternative occurs: two sites, one species, `t = 1`, a diagonaliser
which returns `(|01> + |10>)/sqrt 2`, where both sites are half filled. -/
example : ∃ (coordOf : ℝ → Coord) (eig : (N : ℕ) → Matrix (Fin N) (Fin N) ℂ → ℝ × Vec N) (R : Spectrum 1),
    scriptLanczos (fun _ => id) (fun _ => id) (10 ^ 4) coordOf 4 eig (1 / 10) 200 2 [0] 1 [.int 2] [-2] 0.05
        (fun _ _ _ => 0) = some (.ok R) ∧
      IsBandSpectrum 2 1 1 [-2] 0.05 (2 * 1 ^ 2 * 2 * (1 / 10) / 0.05 ^ 2) R := by
  classical
  obtain ⟨eig0, heig0⟩ := eig_exists
  have hs : (1 / Real.sqrt 2) * (1 / Real.sqrt 2) = 1 / 2 := by
    rw [div_mul_div_comm, Real.mul_self_sqrt (by norm_num)]
    norm_num
  let v : Vec 4 := fun r => if (r : ℕ) = 1 ∨ (r : ℕ) = 2 then ((1 / Real.sqrt 2 : ℝ) : ℂ) else 0
  let M0 : Matrix (Fin 4) (Fin 4) ℂ := opMat [0, 1, 2, 3] (ringHamiltonian 2 1 1)
  have o0 : occ 0 = ∅ := by decide
  have o1 : occ 1 = {0} := by decide
  have o2 : occ 2 = {1} := by decide
  have o3 : occ 3 = {0, 1} := by decide
  have h1 : ringHamiltonian 2 1 1 (ket {0}) = (2 : ℂ) • ket {1} := by
    simp [ringHamiltonian, hopPair, Finset.sum_range_succ, annihilate_ket, create_ket, jwSign, two_smul]
  have h2 : ringHamiltonian 2 1 1 (ket {1}) = (2 : ℂ) • ket {0} := by
    simp [ringHamiltonian, hopPair, Finset.sum_range_succ, annihilate_ket, create_ket, jwSign, two_smul]
    rw [show (({1} : Finset ℕ).filter fun x => x = 0) = ∅ by decide]
    simp
  have hv : M0 *ᵥ v = ((2 : ℝ) : ℂ) • v := by
    have e : ∀ r c : Fin 4, M0 r c = ringHamiltonian 2 1 1 (ket (occ c)) (occ r) := by
      intro r c
      fin_cases r <;> fin_cases c <;> rfl
    funext r
    change ∑ c, M0 r c * v c = 2 * v r
    simp only [e]
    rw [Fin.sum_univ_four]
    have k : ∀ S T : Finset ℕ, ket S T = if S = T then 1 else 0 := fun S T => Finsupp.single_apply
    have d1 : ({0} : Finset ℕ) ≠ {1} := by decide
    have d2 : ({1} : Finset ℕ) ≠ {0} := by decide
    have d3 : ({0} : Finset ℕ) ≠ {0, 1} := by decide
    have d4 : ({1} : Finset ℕ) ≠ {0, 1} := by decide
    fin_cases r <;> simp [v, o0, o1, o2, o3, h1, h2, k, d1, d2, d3, d4]
  have hvv : vdot v v = 1 := by
    change ∑ c, star (v c) * v c = 1
    rw [Fin.sum_univ_four]
    simp [v]
    rw [← Complex.ofReal_inv, ← Complex.ofReal_mul, ← one_div, hs]
    norm_num
  let eig : (N : ℕ) → Matrix (Fin N) (Fin N) ℂ → ℝ × Vec N := fun N M =>
    if h : ∃ e : N = 4, M = e ▸ M0 then (2, h.choose ▸ v) else eig0 N M
  have heig : ∀ N M, M.IsHermitian → 0 < N →
      M *ᵥ (eig N M).2 = ((eig N M).1 : ℂ) • (eig N M).2 ∧ vdot (eig N M).2 (eig N M).2 = 1 := by
    intro N M hM hN
    by_cases h : ∃ e : N = 4, M = e ▸ M0
    · have he : eig N M = (2, h.choose ▸ v) := dif_pos h
      rw [he]
      obtain ⟨rfl, rfl⟩ := h
      exact ⟨hv, hvv⟩
    · have he : eig N M = eig0 N M := dif_neg h
      rw [he]
      exact heig0 N M hM hN
  have he4 : eig 4 M0 = (2, v) := dif_pos ⟨rfl, rfl⟩
  refine ⟨fun x => .flt (.fin ⌊x⌋), eig, ?_⟩
  obtain ⟨U, hU, hgood, -⟩ := C87_lanczos_spectrum (prec := 4) (p := 4) (n := 2) (S := 1) (fun _ => id)
    (fun _ l => List.Perm.refl l) (fun _ => id) (fun _ l => List.Perm.refl l) (by norm_num) (by norm_num)
    (by norm_num) (by norm_num) le_rfl (coordOf := fun x => .flt (.fin ⌊x⌋))
    (fun i _ => by simp) 1 heig (thr := 1 / 10) (by norm_num) (K := 200) (by norm_num) (omegas := [-2]) (by simp)
    (eta := 0.05) (by norm_num) (fun _ _ _ => 0) (by norm_num)
  obtain ⟨subs, hk, hsub, hrep, hsp⟩ := ((C85_demo_bases (n := 2) (by norm_num)).1 1 le_rfl (by norm_num)).1
  obtain ⟨U', hU', hbas, htab, hHM⟩ := C85_hamiltonian (prec := 4) (fun _ => id)
    (fun _ l => List.Perm.refl l) (fun _ => id) (fun _ l => List.Perm.refl l) (p := 4) (by norm_num) (by norm_num)
    (by norm_num) (by norm_num) le_rfl (by norm_num) (coordOf := fun x => .flt (.fin ⌊x⌋))
    (fun i _ => by simp) 1 hk hsub hrep hsp
  have hUU : U = U' := by simpa using hU.symm.trans hU'
  subst hUU
  have hUeq := setup_eq hbas hHM
  obtain ⟨R, hR, hb⟩ := hgood (by
    rw [hUeq]
    intro q hq
    change (1 / 10 : ℝ) ^ 2 < occupation [0, 1, 2, 3] (eig 4 M0).2 q ∧ (1 / 10 : ℝ) ^ 2 < 1 - occupation [0, 1, 2, 3] (eig 4 M0).2 q
    rw [he4]
    have : occupation [0, 1, 2, 3] v q = 1 / 2 := by
      unfold occupation
      simp only [List.length_cons, List.length_nil]
      rw [Fin.sum_univ_four]
      obtain rfl | rfl : q = 0 ∨ q = 1 := by omega
      all_goals simp [v, o0, o1, o2, o3]
    rw [this]
    norm_num)
  exact ⟨R, by simpa using hR, by simpa using hb⟩

/-- NNTBChain4.py itself (twelve sites, both spins half filled, default precisions and `krylov_space_dim`), at one
frequency: the script plots the band structure unless a single-particle state is empty or full. -/
example : ∃ (coordOf : ℝ → Coord) (eig : (N : ℕ) → Matrix (Fin N) (Fin N) ℂ → ℝ × Vec N) (U : Setup),
    chainSetup (fun _ => id) (fun _ => id) (10 ^ 4) coordOf 4 12 [0, 1] (1 : ℝ) (spinSpecs 12 6 6) = some (.ok U) ∧
    ((∀ q < 24, (1 / 10 ^ 10 : ℝ) ^ 2 < occupation U.basis (eig U.basis.length U.HM).2 q ∧
        (1 / 10 ^ 10 : ℝ) ^ 2 < 1 - occupation U.basis (eig U.basis.length U.HM).2 q) →
      ∃ R : Spectrum 1, scriptSpins (fun _ => id) (fun _ => id) (10 ^ 4) coordOf 4 eig (1 / 10 ^ 10) 200 12 [0, 1] (1 : ℝ)
        (spinSpecs 12 6 6) (fun s => if s = 1 then spinSpecs 12 5 6 else spinSpecs 12 6 5)
        (fun s => if s = 1 then spinSpecs 12 7 6 else spinSpecs 12 6 7) [-2] 0.05 (fun _ _ _ => 0) = some (.ok R)) := by
  obtain ⟨eig, heig⟩ := eig_exists
  obtain ⟨U, hU, hgood, -⟩ := C87_spins_spectrum (prec := 4) (p := 4) (n := 12) (fun _ => id)
    (fun _ l => List.Perm.refl l) (fun _ => id) (fun _ l => List.Perm.refl l) (by norm_num) (by norm_num)
    (by norm_num) (by norm_num) (coordOf := fun x => .flt (.fin ⌊x⌋))
    (fun i _ => by simp) 1 heig (thr := 1 / 10 ^ 10) (by norm_num) (K := 200) (by norm_num) (omegas := [-2]) (by simp)
    (eta := 0.05) (by norm_num) (fun _ _ _ => 0) (by norm_num) (Nup := 6) (Ndown := 6) (by norm_num) (by norm_num)
    (by norm_num) (by norm_num) (fun _ => rfl) (fun _ => rfl)
  refine ⟨_, eig, U, hU, fun h => ?_⟩
  obtain ⟨R, hR, -⟩ := hgood h
  exact ⟨R, hR⟩

/-- NNTBChain3.py with eight sites: the same. -/
example : ∃ (coordOf : ℝ → Coord) (eig : (N : ℕ) → Matrix (Fin N) (Fin N) ℂ → ℝ × Vec N) (U : Setup),
    chainSetup (fun _ => id) (fun _ => id) (10 ^ 4) coordOf 4 8 ((List.range 2).map fun s : ℕ => (s : ℤ)) (1 : ℝ)
      [.list [.int (2 * 8 : ℕ), .int (8 : ℕ)]] = some (.ok U) ∧
    ((∃ q < 16, occupation U.basis (eig U.basis.length U.HM).2 q ≤ (1 / 10 ^ 10 : ℝ) ^ 2 ∨
        1 - occupation U.basis (eig U.basis.length U.HM).2 q ≤ (1 / 10 ^ 10 : ℝ) ^ 2) →
      scriptSectors (fun _ => id) (fun _ => id) (10 ^ 4) coordOf 4 eig (1 / 10 ^ 10) 200 8
        ((List.range 2).map fun s : ℕ => (s : ℤ)) (1 : ℝ)
        [.list [.int (2 * 8 : ℕ), .int (8 : ℕ)]] [.list [.int (2 * 8 : ℕ), .int ((8 : ℕ) - 1)]]
        [.list [.int (2 * 8 : ℕ), .int ((8 : ℕ) + 1)]] [-2] 0.05 (fun _ _ _ => 0) = some (.error .valueError)) := by
  obtain ⟨eig, heig⟩ := eig_exists
  obtain ⟨U, hU, -, hbad⟩ := C87_sectors_spectrum (prec := 4) (p := 4) (n := 8) (S := 2) (fun _ => id)
    (fun _ l => List.Perm.refl l) (fun _ => id) (fun _ l => List.Perm.refl l) (by norm_num) (by norm_num)
    (by norm_num) (by norm_num) (by norm_num) (coordOf := fun x => .flt (.fin ⌊x⌋))
    (fun i _ => by simp) 1 heig (thr := 1 / 10 ^ 10) (by norm_num) (K := 200) (by norm_num) (omegas := [-2]) (by simp)
    (eta := 0.05) (by norm_num) (fun _ _ _ => 0) (by norm_num) (N := 8) (by norm_num) (by norm_num)
  exact ⟨_, eig, U, hU, hbad⟩

end Verif.Demo
