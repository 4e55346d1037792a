import Verif.Proofs.DemoBases
/-!
# Lemmas for C87: the last steps of the scripts
-/

namespace Verif.Demo

open Latt LDB Spec Matrix Lanczos GF

/-- `kspace_gfs` from the sum over the dict. -/
theorem finish_close {prec : ℕ} (hprec : 1 ≤ prec) {n S : ℕ} (hn : 1 ≤ n) {t : ℝ} {omegas : List ℝ} {eta err : ℝ}
    {D : GfDict omegas.length}
    (h : ∀ (wi : Fin omegas.length) (i : ℕ),
      ‖(D.keys.map fun p => (D.get p).getD 0 wi * phaseFactor [2 * Real.pi * i / n] p.1 p.2).sum -
        ((S * n : ℕ) : ℂ) / ((omegas.get wi : ℂ) + Complex.I * eta -
          ((2 * t * Real.cos (2 * Real.pi * i / n) : ℝ) : ℂ))‖ ≤ n * err) :
    ∃ R, finish prec n D = .ok R ∧ IsBandSpectrum n S t omegas eta err R := by
  obtain ⟨cell, hcell, hkp⟩ := kpoints_ok (prec := prec) hprec n
  refine ⟨kspaceGfs n ((List.range (n + 1)).map fun i : ℕ => [2 * Real.pi * i / n]) D, ?_, rfl, fun wi i => ?_⟩
  · unfold finish
    rw [hcell]
    simp only [bind, Except.bind]
    rw [hkp]
    rfl
  · have hn0 : (0 : ℝ) < n := by exact_mod_cast hn
    have hn0' : (n : ℂ) ≠ 0 := by exact_mod_cast (by omega : n ≠ 0)
    have hgf : ‖(kspaceGfs n ((List.range (n + 1)).map fun i : ℕ => [2 * Real.pi * i / n]) D).gfs wi i -
        S / ((omegas.get wi : ℂ) + Complex.I * eta -
          ((2 * t * Real.cos (2 * Real.pi * (i : ℕ) / n) : ℝ) : ℂ))‖ ≤ err := by
      have h1 := h wi i
      rw [kspace_value]
      generalize (D.keys.map fun p => (D.get p).getD 0 wi * phaseFactor [2 * Real.pi * (i : ℕ) / n] p.1 p.2).sum = X
        at h1 ⊢
      generalize ((omegas.get wi : ℂ) + Complex.I * eta -
          ((2 * t * Real.cos (2 * Real.pi * (i : ℕ) / n) : ℝ) : ℂ)) = Z at h1 ⊢
      have e : X / (n : ℂ) - S / Z = (X - ((S * n : ℕ) : ℂ) / Z) / n := by
        push_cast
        rw [sub_div, div_right_comm (_ * _), mul_div_assoc, div_self hn0', mul_one]
      rw [e, norm_div, Complex.norm_natCast, div_le_iff₀ hn0, mul_comm err]
      exact h1
    exact ⟨hgf, spectrum_close hgf⟩

/-- The operators of some species. -/
theorem clusterOperators_ok {prec : ℕ} (hprec : 1 ≤ prec) {n : ℕ} (hn : 1 ≤ n) {zoom : ℤ} {coordOf : ℝ → Coord}
    {st : ℕ → ℕ → StateID} (h : States zoom coordOf n st) (Ts : List ℕ) :
    clusterOperators zoom coordOf prec n (Ts.map fun s : ℕ => (s : ℤ)) =
      .ok ((sites Ts n).map fun p => (opA st p, opC st p)) := by
  obtain ⟨L0, e1, e2, -⟩ := chain_lat (prec := prec) hprec hn (n1 := 1) (n2 := 1) le_rfl le_rfl
  unfold clusterOperators
  rw [e1]
  exact operators_ok h Ts e2

section

variable {prec : ℕ} {order : ∀ k : ℕ, List (Fin k → ℤ) → List (Fin k → ℤ)}
    {porder : ∀ N : ℕ, List (Fin N × Fin N) → List (Fin N × Fin N)} {p n S : ℕ} {coordOf : ℝ → Coord}

/-- What the scripts know about one Hilbert space. -/
theorem setup_ok
    (horder : ∀ k l, (order k l).Perm l) (hporder : ∀ N l, (porder N l).Perm l) (hprec : 1 ≤ prec) (hp : p ≤ 22)
    (hz : 10 ^ p * n ≤ 2 ^ 53) (hn : 1 ≤ n) (hS : 1 ≤ S) (h64 : S * n ≤ 64)
    (hc : ∀ i < n, coordOf (i : ℝ) = .flt (.fin i)) (t : ℝ) {specs : List HVal} {kets : List ℕ}
    {subs : List (List ℕ × HNum)} (hk : baseVectors specs = .ok kets)
    (hsub : specs.mapM preprocess = .ok subs) (hrep : NoRepeats subs) (hsp : SpeciesWise n S subs)
    {st : ℕ → ℕ → StateID} (hst : States (10 ^ p) coordOf n st) :
    ∃ table, chainSetup order porder (10 ^ p) coordOf prec n ((List.range S).map fun s : ℕ => (s : ℤ)) t specs =
        some (.ok ⟨table, kets, opMat kets (ringHamiltonian n S t)⟩) ∧
      (∀ s < S, ∀ i < n, table.queryIndex (st s i) = .ok ((s * n + i : ℕ) : ℤ)) ∧
      kets.Pairwise (· < ·) ∧ MapsTo (ringHamiltonian n S t) kets kets := by
  obtain ⟨U, hU, hbas, htab, hHM⟩ := C85_hamiltonian order horder porder hporder hprec hp hz hn hS h64 hc t hk hsub
    hrep hsp
  obtain ⟨table, basis, HM⟩ := U
  have hUeq := setup_eq hbas hHM
  dsimp only at hbas htab hHM hUeq
  rw [hUeq] at hU
  exact ⟨table, hU, fun s hs i hi => htab s hs i hi _ (hst.init_eq s i hi),
    (C15_base_vectors_ascending specs .array kets hk subs hsub hrep).1,
    mapsTo_ring hn (hopClosed_of_speciesWise h64 hk hsub hrep hsp) t⟩

end

theorem speciesWise_total {n S : ℕ} (N : HNum) : SpeciesWise n S [(List.range (S * n), N)] := by
  refine ⟨fun q hq => ⟨_, List.mem_singleton_self _, List.mem_range.2 hq⟩, fun p hp _ s hs => ?_⟩
  rw [List.mem_singleton] at hp
  subst hp
  exact .inl fun i hi => List.mem_range.2 (site_lt hs hi)

end Verif.Demo
