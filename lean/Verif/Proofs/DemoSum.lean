import Verif.Proofs.DemoExact
import Verif.Proofs.RingGreen
/-!
# Lemmas for C86, C87: from the Green functions of the cluster to momentum space
-/

namespace Verif.Demo

open Latt LDB Spec Matrix Lanczos GF

theorem setup_eq {n S : ℕ} {t : ℝ} {kets : List ℕ} {U : Setup} (hb : U.basis = kets)
    (hH : ∀ r c : Fin U.basis.length,
        U.HM r c = matrixElement (ringHamiltonian n S t) (occ U.basis[r]) (occ U.basis[c])) :
    U = ⟨U.table, kets, opMat kets (ringHamiltonian n S t)⟩ := by
  obtain ⟨table, basis, HM⟩ := U
  dsimp only at hb hH
  subst hb
  congr
  ext r c
  rw [hH, opMat_apply]

/-- The keys of the dict of one sector. -/
def keysOf (st : ℕ → ℕ → StateID) (n : ℕ) (Ts : List ℕ) : List (AoC × AoC) :=
  ((sites Ts n).map (opA st)).flatMap fun A => ((sites Ts n).map (opC st)).map fun B => (A, B)

section

variable {zoom : ℤ} {coordOf : ℝ → Coord} {n S : ℕ} {st : ℕ → ℕ → StateID} {Ts : List ℕ} {t : ℝ}
  {B0 Bp Bh : List ℕ} {m : ℕ}

/-- The sum over the keys of one sector, when every entry is off by at most `δ`. -/
theorem sector_close (hc : ∀ i < n, coordOf (i : ℝ) = .flt (.fin i)) (h : States zoom coordOf n st)
    (hn : 1 ≤ n) (hnd : Ts.Nodup) (hTs : ∀ s ∈ Ts, s < S)
    (h0 : B0.Nodup) (hp : Bp.Nodup) (hh : Bh.Nodup) (hH : MapsTo (ringHamiltonian n S t) B0 B0)
    (hC : ∀ s ∈ Ts, ∀ j < n, MapsTo (create (s * n + j)) B0 Bp)
    (hA : ∀ s ∈ Ts, ∀ j < n, MapsTo (annihilate (s * n + j)) B0 Bh) {GE : ℝ} {GS : Vec B0.length}
    (hGS : opMat B0 (ringHamiltonian n S t) *ᵥ GS = (GE : ℂ) • GS) (hnorm : vdot GS GS = 1) {omega eta δ : ℝ}
    (heta : eta ≠ 0) {D : AoC × AoC → Option (Fin m → ℂ)} {wi : Fin m}
    (hD : ∃ (x : ℕ × ℕ → Vec Bp.length) (y : ℕ × ℕ → Vec Bh.length),
      (∀ p ∈ sites Ts n, shifted (zOf omega eta) GE (opMat Bp (ringHamiltonian n S t)) "-" *ᵥ x p =
        opMat2 Bp B0 (create (p.1 * n + p.2)) *ᵥ GS) ∧
      (∀ p ∈ sites Ts n, shifted (zOf omega eta) GE (opMat Bh (ringHamiltonian n S t)) "+" *ᵥ y p =
        opMat2 Bh B0 (annihilate (p.1 * n + p.2)) *ᵥ GS) ∧
      ∀ p ∈ sites Ts n, ∀ q ∈ sites Ts n, ∃ row, D (opA st p, opC st q) = some row ∧
        ‖row wi - (vdot (opMat2 Bp B0 (create (p.1 * n + p.2)) *ᵥ GS) (x q) +
          vdot (opMat2 Bh B0 (annihilate (q.1 * n + q.2)) *ᵥ GS) (y p))‖ ≤ δ) (i : ℕ) :
    ‖((keysOf st n Ts).map fun p => (D p).getD 0 wi * phaseFactor [2 * Real.pi * i / n] p.1 p.2).sum -
      ((Ts.length * n : ℕ) : ℂ) / ((omega : ℂ) + Complex.I * eta -
        ((2 * t * Real.cos (2 * Real.pi * i / n) : ℝ) : ℂ))‖ ≤ (Ts.length * n : ℕ) ^ 2 * δ := by
  classical
  obtain ⟨x, y, hx, hy, hD⟩ := hD
  obtain ⟨w1, w2, w3⟩ := phase_facts hn i t
  have key := keys_sum hc h hnd hD (2 * Real.pi * i / n)
  have hmem : ∀ {p}, p ∈ Ts.toFinset ×ˢ Finset.range n → p ∈ sites Ts n := by
    intro p hp
    rw [Finset.mem_product, List.mem_toFinset, Finset.mem_range] at hp
    exact mem_sites.2 hp
  have hz : zOf omega eta ≠ band t (Complex.exp (Complex.I * ((2 * Real.pi * i / n : ℝ) : ℂ))) := by
    rw [w3]
    intro he
    have := congrArg Complex.im he
    rw [Complex.ofReal_im] at this
    exact heta (by simpa [zOf] using this)
  have hmode := mode_green (n := n) (S := S) (T := Ts.toFinset) hn (fun s hs => Finset.mem_range.2 (hTs s (List.mem_toFinset.1 hs)))
    t w1 w2 h0 hp hh hH (fun s hs => hC s (List.mem_toFinset.1 hs)) (fun s hs => hA s (List.mem_toFinset.1 hs))
    hGS hnorm hz (shifted_isUnit (ring_hermitian Bp n S t) heta "-") (shifted_isUnit (ring_hermitian Bh n S t) heta "+")
    (fun p hp => hx p (hmem hp)) (fun p hp => hy p (hmem hp))
  rw [hmode, w3, List.toFinset_card_of_nodup hnd] at key
  exact key

end

/-- The value at a k-point. -/
theorem kspace_value {m : ℕ} (n : ℕ) (D : GfDict m) (wi : Fin m)
    (i : Fin (kspaceGfs n ((List.range (n + 1)).map fun i : ℕ => [2 * Real.pi * i / n]) D).kpts.length) :
    (kspaceGfs n ((List.range (n + 1)).map fun i : ℕ => [2 * Real.pi * i / n]) D).gfs wi i =
      (D.keys.map fun p => (D.get p).getD 0 wi * phaseFactor [2 * Real.pi * (i : ℕ) / n] p.1 p.2).sum / (n : ℂ) := by
  have hi : ∀ i : Fin ((List.range (n + 1)).map fun i : ℕ => [2 * Real.pi * (i : ℝ) / n]).length,
      ((List.range (n + 1)).map fun i : ℕ => [2 * Real.pi * (i : ℝ) / n]).get i =
        [2 * Real.pi * ((i : ℕ) : ℝ) / n] := by
    intro i
    rw [List.get_eq_getElem, List.getElem_map, List.getElem_range]
  exact congrArg (fun k => (D.keys.map fun p => (D.get p).getD 0 wi * phaseFactor k p.1 p.2).sum / (n : ℂ)) (hi i)

/-- The Lorentzian. -/
theorem lorentz (N : ℕ) (omega eta e : ℝ) :
    -((N : ℂ) / ((omega : ℂ) + Complex.I * eta - (e : ℂ))).im / Real.pi =
      N * ((eta / Real.pi) / ((omega - e) ^ 2 + eta ^ 2)) := by
  have h1 : ((omega : ℂ) + Complex.I * eta - (e : ℂ)).re = omega - e := by simp
  have h2 : ((omega : ℂ) + Complex.I * eta - (e : ℂ)).im = eta := by simp
  rw [Complex.div_im, Complex.normSq_apply, h1, h2]
  simp only [Complex.natCast_im, Complex.natCast_re, zero_mul, zero_div, zero_sub, neg_neg]
  rw [← sq, ← sq]
  ring

theorem spectrum_close {m : ℕ} {R : Spectrum m} {wi : Fin m} {i : Fin R.kpts.length} {N : ℕ} {omega eta e δ : ℝ}
    (h : ‖R.gfs wi i - (N : ℂ) / ((omega : ℂ) + Complex.I * eta - (e : ℂ))‖ ≤ δ) :
    |R.spectrum wi i - N * ((eta / Real.pi) / ((omega - e) ^ 2 + eta ^ 2))| ≤ δ / Real.pi := by
  unfold Spectrum.spectrum
  rw [← lorentz, ← sub_div, abs_div, abs_of_pos Real.pi_pos]
  refine div_le_div_of_nonneg_right ?_ Real.pi_pos.le
  refine le_trans ?_ h
  refine le_trans (le_of_eq ?_) (Complex.abs_im_le_norm _)
  rw [Complex.sub_im, ← abs_neg]
  congr 1
  ring

end Verif.Demo
