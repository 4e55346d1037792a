import Verif.Proofs.LatticeBand
/-!
# C107: from the one-particle matrix to the statements
-/

namespace Verif.LDB

open Verif.Latt Demo

variable {m prec : ℕ}

open Free Spec in
theorem oneParticle_of {M : ℕ} (h : Matrix (Fin M) (Fin M) ℂ) {B : List ℕ}
    (hB : B = (List.range M).map fun i : ℕ => 2 ^ i) (hlen : B.length = M) (p q : Fin M) :
    opMat B (quadratic h) (Fin.cast hlen.symm p) (Fin.cast hlen.symm q) = h p q := by
  rw [opMat_apply]
  have hocc : ∀ i : Fin M, occ B[Fin.cast hlen.symm i] = {(i : ℕ)} := by
    intro i
    have : B[Fin.cast hlen.symm i] = 2 ^ (i : ℕ) := by
      simp only [hB, Fin.getElem_fin, Fin.val_cast, List.getElem_map, List.getElem_range]
    rw [this, occ_two_pow]
  rw [hocc, hocc, matrixElement]
  unfold quadratic
  simp only [LinearMap.sum_apply, Finsupp.finsetSum_apply, LinearMap.smul_apply, Finsupp.smul_apply, smul_eq_mul,
    hop_single]
  rw [Finset.sum_eq_single p, Finset.sum_eq_single q]
  · simp
  · intro j _ hj
    have : (j : ℕ) ≠ q := fun e => hj (Fin.ext e)
    simp [this]
  · intro h; exact absurd (Finset.mem_univ q) h
  · intro i _ hi
    have hip : (i : ℕ) ≠ p := fun e => hi (Fin.ext e)
    simp [hip]
  · intro h; exact absurd (Finset.mem_univ p) h

theorem oneParticle_run {S : Set (Pt m)} {d : ℝ} (hd0 : d ≠ 0) {z count : ℕ} (hz : 0 < z) (hc0 : 1 ≤ count)
    (hc : Coordination S d z) {v : Fin m → Pt m} {r : Py Built} (ht : ReturnsTiling S count v r)
    (hf : FindsNearest prec S d r) (hfold : FoldsEverySite prec S r) :
    EveryRun prec count r (OneParticle S d) := by
  obtain ⟨L0, h1, -, h3⟩ := ht
  refine ⟨L0, h1, fun order horder porder hporder calls zoom coordOf hst species hs h64 t => ?_⟩
  obtain ⟨h, -, hrun, heq⟩ := band_core hd0 hz hc0 hc h1 h3 hf hfold horder hporder calls hst hs h64 t
  have hpos : 0 < species * count := Nat.mul_pos hs hc0
  obtain ⟨B, hB, hasc, hl⟩ := sector_basis hpos h64 (N := 1) hpos
  have hB1 := C70_one_particle_basis (species * count) hpos h64
  have he : B = (List.range (species * count)).map (fun (i : ℕ) => 2 ^ i) := by
    rw [show ((1 : ℕ) : ℤ) = 1 from rfl, hB1] at hB
    exact (Except.ok.inj hB).symm
  have hlen : B.length = species * count := by rw [he]; simp
  obtain ⟨table, htab⟩ := hrun 1 B hB hasc hl
  refine ⟨_, (finProdFinEquiv : Fin species × Fin count ≃ _).trans (finCongr hlen.symm), htab, fun x => ?_, fun f hf x => ?_⟩
  · have hval : ((((finProdFinEquiv : Fin species × Fin count ≃ _).trans (finCongr hlen.symm)) x : Fin B.length) : ℕ) =
        x.1 * count + x.2 := slot_val x.1 x.2
    refine ⟨hval, ?_⟩
    change B[((((finProdFinEquiv : Fin species × Fin count ≃ _).trans (finCongr hlen.symm)) x : Fin B.length) : ℕ)] = _
    simp only [hval, he, List.getElem_map, List.getElem_range]
  · rw [← heq f hf x.1 x.2]
    refine Finset.sum_congr rfl fun y _ => ?_
    congr 1
    exact oneParticle_of h he hlen (slot x.1 x.2) (slot y.1 y.2)

open Free in
theorem bandSpectrum_run {S : Set (Pt m)} {d : ℝ} (hd0 : d ≠ 0) {z count : ℕ} (hz : 0 < z) (hc0 : 1 ≤ count)
    (hc : Coordination S d z) {v : Fin m → Pt m} {r : Py Built} (ht : ReturnsTiling S count v r)
    (hf : FindsNearest prec S d r) (hfold : FoldsEverySite prec S r) (hB : Bravais S) {D : Finset (Pt m)}
    (hD : NeighbourVectors S d D) : EveryRun prec count r (BandSpectrum S D) := by
  classical
  obtain ⟨L0, h1, -, h3⟩ := ht
  refine ⟨L0, h1, fun order horder porder hporder calls zoom coordOf hst species hs h64 t => ?_⟩
  obtain ⟨h, hh, hrun, heq⟩ := band_core hd0 hz hc0 hc h1 h3 hf hfold horder hporder calls hst hs h64 t
  have hpos : 0 < species * count := Nat.mul_pos hs hc0
  intro ι _ q hcard hq hne N hN
  obtain ⟨B, hB', hasc, hl⟩ := sector_basis hpos h64 hN
  obtain ⟨table, htab⟩ := hrun N B hB' hasc hl
  refine ⟨_, htab, ?_⟩
  have hsite : ∀ i, L0.points i ∈ S := fun i => by
    have := h3.inside i 0
    rwa [comb_zero, add_zero] at this
  have hlin := spinful_independent (Sn := species) (planeWaves_independent h3 hB hc0 q hq hne)
  have hspec := charpoly_of_eigen (Fintype.equivOfCardEq (by simp [hcard]) : Fin species × ι ≃ Fin species × Fin count)
    (h.submatrix finProdFinEquiv finProdFinEquiv) _ hlin (fun x => ((bandEnergy t D (q x.2) : ℝ) : ℂ)) (fun x y => by
      have := heq (fun s => if x.1 = s then planeWave (q x.2) else 0) (fun s => by
        split
        · exact periodic_planeWave (hq x.2)
        · intro p c; rfl) y.1 y.2
      have e : ∀ s p, (if x.1 = s then planeWave (q x.2) else 0) p = if x.1 = s then planeWave (q x.2) p else 0 := by
        intro s p; split <;> rfl
      simp only [e] at this
      refine this.trans ?_
      by_cases hxy : x.1 = y.1
      · simp only [hxy, if_true]
        exact hops_planeWave hD t _ (hsite _)
      · simp only [if_neg hxy, mul_zero, hops]
        simp)
  have h1 : h.charpoly = ∏ x : Fin species × ι, (Polynomial.X - Polynomial.C ((bandEnergy t D (q x.2) : ℝ) : ℂ)) := by
    rw [← hspec]
    exact (Matrix.charpoly_reindex finProdFinEquiv.symm h).symm
  have h2 := charpoly_hermitian hl hh
  refine h2.trans ?_
  refine energySums_congr N _ _ ?_
  rw [← h1, hh.charpoly_eq]
  rfl

end Verif.LDB
