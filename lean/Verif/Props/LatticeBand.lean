import Verif.Proofs.LatticeStepsSpecial
import Verif.Props.LatticeSites
/-!
# C107: the tight-binding model of the built-in lattices, end to end

A cluster is built, `bonds(1)` is called, every bond becomes a hopping term, the terms are represented on the basis of
`N` particles and added with their conjugates, as in the scripts NNTBChain1.py to NNTBChain4.py.
-/

namespace Verif.LDB

open Verif.Latt Demo

variable {prec : ℕ} {n0 n1 n2 : ℤ}

/-- **C107 (the equation, generated lattices).** -/
theorem C107_generated (hp : 1 ≤ prec) (h0 : 1 ≤ n0) (h1 : 1 ≤ n1) (h2 : 1 ≤ n2) :
    EveryRun prec n0.toNat (latticeGenerator prec "chain" n0 n1 n2) (OneParticle chainSites 1) ∧
    EveryRun prec (n0.toNat * n1.toNat) (latticeGenerator prec "square" n0 n1 n2) (OneParticle squareSites 1) ∧
    EveryRun prec (n0.toNat * n1.toNat) (latticeGenerator prec "triangle" n0 n1 n2) (OneParticle triangleSites 1) ∧
    EveryRun prec (n0.toNat * n1.toNat * 3) (latticeGenerator prec "kagome" n0 n1 n2)
      (OneParticle kagomeSites (1 / 2)) ∧
    EveryRun prec (n0.toNat * n1.toNat * n2.toNat) (latticeGenerator prec "cubic" n0 n1 n2) (OneParticle cubicSites 1) ∧
    (1 / Real.sqrt 3 ≤ roundTo prec (1 / Real.sqrt 3) →
      EveryRun prec (n0.toNat * n1.toNat * 2) (latticeGenerator prec "honeycomb" n0 n1 n2)
        (OneParticle honeycombSites (1 / Real.sqrt 3))) := by
  obtain ⟨a, b, c, d, e, f⟩ := C94_generated hp h0 h1 h2
  obtain ⟨a', b', c', f', d', e'⟩ := C66_generated hp h0 h1 h2
  have p0 : 1 ≤ n0.toNat := by omega
  have p1 : 1 ≤ n1.toNat := by omega
  have p2 : 1 ≤ n2.toNat := by omega
  have p01 : 1 ≤ n0.toNat * n1.toNat := Nat.mul_pos p0 p1
  have p012 : 1 ≤ n0.toNat * n1.toNat * n2.toNat := Nat.mul_pos p01 p2
  exact ⟨oneParticle_run one_ne_zero (by norm_num) p0 coord_chain (C53_chain hp h0 h1 h2) a a',
    oneParticle_run one_ne_zero (by norm_num) p01 coord_square (C53_square hp h0 h1 h2) b b',
    oneParticle_run one_ne_zero (by norm_num) p01 coord_triangle (C53_triangle hp h0 h1 h2) c c',
    oneParticle_run (by norm_num) (by norm_num) (by omega) coord_kagome (C53_kagome hp h0 h1 h2) d d',
    oneParticle_run one_ne_zero (by norm_num) p012 coord_cubic (C53_cubic hp h0 h1 h2) e e',
    fun hr => oneParticle_run inv_sqrt3_pos.ne' (by norm_num) (by omega) coord_honeycomb
      (C53_honeycomb hp h0 h1 h2) (f hr) f'⟩

/-- **C107 (the spectrum, generated Bravais lattices).**  For any complete choice of wave vectors. -/
theorem C107_spectrum_generated (hp : 1 ≤ prec) (h0 : 1 ≤ n0) (h1 : 1 ≤ n1) (h2 : 1 ≤ n2) :
    EveryRun prec n0.toNat (latticeGenerator prec "chain" n0 n1 n2) (BandSpectrum chainSites chainSteps) ∧
    EveryRun prec (n0.toNat * n1.toNat) (latticeGenerator prec "square" n0 n1 n2)
      (BandSpectrum squareSites squareSteps) ∧
    EveryRun prec (n0.toNat * n1.toNat) (latticeGenerator prec "triangle" n0 n1 n2)
      (BandSpectrum triangleSites triangleSteps) ∧
    EveryRun prec (n0.toNat * n1.toNat * n2.toNat) (latticeGenerator prec "cubic" n0 n1 n2)
      (BandSpectrum cubicSites cubicSteps) := by
  obtain ⟨a, b, c, -, e, -⟩ := C94_generated hp h0 h1 h2
  obtain ⟨a', b', c', -, -, e'⟩ := C66_generated hp h0 h1 h2
  have p0 : 1 ≤ n0.toNat := by omega
  have p1 : 1 ≤ n1.toNat := by omega
  have p2 : 1 ≤ n2.toNat := by omega
  have p01 : 1 ≤ n0.toNat * n1.toNat := Nat.mul_pos p0 p1
  have p012 : 1 ≤ n0.toNat * n1.toNat * n2.toNat := Nat.mul_pos p01 p2
  exact ⟨bandSpectrum_run one_ne_zero (by norm_num) p0 coord_chain (C53_chain hp h0 h1 h2) a a' bravais_chain steps_chain,
    bandSpectrum_run one_ne_zero (by norm_num) p01 coord_square (C53_square hp h0 h1 h2) b b' bravais_square steps_square,
    bandSpectrum_run one_ne_zero (by norm_num) p01 coord_triangle (C53_triangle hp h0 h1 h2) c c' bravais_triangle
      steps_triangle,
    bandSpectrum_run one_ne_zero (by norm_num) p012 coord_cubic (C53_cubic hp h0 h1 h2) e e' bravais_cubic steps_cubic⟩

/-- **C107 (the energies of the chain).** -/
theorem C107_chain (hp : 1 ≤ prec) (h0 : 1 ≤ n0) (h1 : 1 ≤ n1) (h2 : 1 ≤ n2) :
    EveryRun prec n0.toNat (latticeGenerator prec "chain" n0 n1 n2)
      (Energies 1 fun t (x : Fin n0.toNat) => 2 * t * Real.cos (2 * Real.pi * (x : ℕ) / n0)) :=
  energies_chain hp h0 h1 h2

/-- **C107 (the energies of the square lattice).** -/
theorem C107_square (hp : 1 ≤ prec) (h0 : 1 ≤ n0) (h1 : 1 ≤ n1) (h2 : 1 ≤ n2) :
    EveryRun prec (n0.toNat * n1.toNat) (latticeGenerator prec "square" n0 n1 n2)
      (Energies 2 fun t (x : Fin n0.toNat × Fin n1.toNat) =>
        2 * t * (Real.cos (2 * Real.pi * (x.1 : ℕ) / n0) + Real.cos (2 * Real.pi * (x.2 : ℕ) / n1))) :=
  energies_square hp h0 h1 h2

/-- **C107 (the energies of the cubic lattice).** -/
theorem C107_cubic (hp : 1 ≤ prec) (h0 : 1 ≤ n0) (h1 : 1 ≤ n1) (h2 : 1 ≤ n2) :
    EveryRun prec (n0.toNat * n1.toNat * n2.toNat) (latticeGenerator prec "cubic" n0 n1 n2)
      (Energies 3 fun t (x : (Fin n0.toNat × Fin n1.toNat) × Fin n2.toNat) =>
        2 * t * (Real.cos (2 * Real.pi * (x.1.1 : ℕ) / n0) + Real.cos (2 * Real.pi * (x.1.2 : ℕ) / n1) +
          Real.cos (2 * Real.pi * (x.2 : ℕ) / n2))) :=
  energies_cubic hp h0 h1 h2

/-- **C107 (the energies of the triangular lattice).** -/
theorem C107_triangle (hp : 1 ≤ prec) (h0 : 1 ≤ n0) (h1 : 1 ≤ n1) (h2 : 1 ≤ n2) :
    EveryRun prec (n0.toNat * n1.toNat) (latticeGenerator prec "triangle" n0 n1 n2)
      (Energies 2 fun t (x : Fin n0.toNat × Fin n1.toNat) =>
        2 * t * (Real.cos (2 * Real.pi * (x.1 : ℕ) / n0) + Real.cos (2 * Real.pi * (x.2 : ℕ) / n1) +
          Real.cos (2 * Real.pi * (x.1 : ℕ) / n0 - 2 * Real.pi * (x.2 : ℕ) / n1))) :=
  energies_triangle hp h0 h1 h2

/-! ### The special clusters -/

/-- The other names of a cluster build the same cluster. -/
theorem folds_names (hp : 1 ≤ prec) (which : String) :
    (which ∈ ["square_cross", "square_12", "cross"] →
      FoldsEverySite prec (shifted ![1 / 2, 1 / 2] squareSites) (specialCluster prec which)) ∧
    (which ∈ ["square_z", "z"] → FoldsEverySite prec (shifted ![1 / 2, 0] squareSites) (specialCluster prec which)) ∧
    (which ∈ ["square_s", "s"] → FoldsEverySite prec (shifted ![1 / 2, 0] squareSites) (specialCluster prec which)) ∧
    (which ∈ ["triangle_star", "triangle_13", "star", "SD"] →
      FoldsEverySite prec (shifted ![0, 0] triangleSites) (specialCluster prec which)) ∧
    (which ∈ ["honeycomb_benzene", "honeycomb_6", "benzene"] →
      FoldsEverySite prec (shifted ![1 / 2, 0] honeycombSites) (specialCluster prec which)) ∧
    (which ∈ ["honeycomb_diphenyl", "honeycomb_10", "diphenyl"] →
      FoldsEverySite prec (shifted ![0, 0] honeycombSites) (specialCluster prec which)) ∧
    (which ∈ ["honeycomb_gear", "honeycomb_24", "gear"] →
      FoldsEverySite prec (shifted ![1 / 2, 0] honeycombSites) (specialCluster prec which)) := by
  obtain ⟨a, b, c, d, e, f, g⟩ := C66_special hp
  refine ⟨fun h => ?_, fun h => ?_, fun h => ?_, fun h => ?_, fun h => ?_, fun h => ?_, fun h => ?_⟩ <;>
  simp only [List.mem_cons, List.not_mem_nil, or_false] at h
  · rwa [show specialCluster prec which = specialCluster prec "cross" by
      rcases h with rfl | rfl | rfl <;> simp [specialCluster, specialInfo]]
  · rwa [show specialCluster prec which = specialCluster prec "z" by
      rcases h with rfl | rfl <;> simp [specialCluster, specialInfo]]
  · rwa [show specialCluster prec which = specialCluster prec "s" by
      rcases h with rfl | rfl <;> simp [specialCluster, specialInfo]]
  · rwa [show specialCluster prec which = specialCluster prec "star" by
      rcases h with rfl | rfl | rfl | rfl <;> simp [specialCluster, specialInfo]]
  · rwa [show specialCluster prec which = specialCluster prec "benzene" by
      rcases h with rfl | rfl | rfl <;> simp [specialCluster, specialInfo]]
  · rwa [show specialCluster prec which = specialCluster prec "diphenyl" by
      rcases h with rfl | rfl | rfl <;> simp [specialCluster, specialInfo]]
  · rwa [show specialCluster prec which = specialCluster prec "gear" by
      rcases h with rfl | rfl | rfl <;> simp [specialCluster, specialInfo]]

/-- The clusters of the square and triangular lattices. -/
theorem special_bravais (hp : 1 ≤ prec) (which : String) :
    (which ∈ ["square_cross", "square_12", "cross"] → EveryRun prec 12 (specialCluster prec which)
      (OneParticle (shifted ![1 / 2, 1 / 2] squareSites) 1)) ∧
    (which ∈ ["square_z", "z", "square_s", "s"] → EveryRun prec 10 (specialCluster prec which)
      (OneParticle (shifted ![1 / 2, 0] squareSites) 1)) ∧
    (which ∈ ["triangle_star", "triangle_13", "star", "SD"] → EveryRun prec 13 (specialCluster prec which)
      (OneParticle (shifted ![0, 0] triangleSites) 1)) := by
  obtain ⟨a, b, c, -⟩ := C94_special hp which
  obtain ⟨a', b', c', d', -, -, -⟩ := folds_names hp which
  refine ⟨fun h => oneParticle_run one_ne_zero (by norm_num) (by norm_num) (coordination_shift coord_square _)
      (C54_cross hp which h) (a h) (a' h), fun h => ?_,
    fun h => oneParticle_run one_ne_zero (by norm_num) (by norm_num) (coordination_shift coord_triangle _)
      (C54_star hp which h) (c h) (d' h)⟩
  by_cases hz : which ∈ ["square_z", "z"]
  · exact oneParticle_run one_ne_zero (by norm_num) (by norm_num) (coordination_shift coord_square _)
      (C54_z hp which hz) (b h) (b' hz)
  · have hs : which ∈ ["square_s", "s"] := by
      simp only [List.mem_cons, List.not_mem_nil, or_false, not_or] at h hz ⊢
      tauto
    exact oneParticle_run one_ne_zero (by norm_num) (by norm_num) (coordination_shift coord_square _)
      (C54_s hp which hs) (b h) (c' hs)

/-- The clusters of the honeycomb lattice. -/
theorem special_honeycomb (hp : 1 ≤ prec) (which : String) (hr : 1 / Real.sqrt 3 ≤ roundTo prec (1 / Real.sqrt 3)) :
    (which ∈ ["honeycomb_benzene", "honeycomb_6", "benzene"] → EveryRun prec 6 (specialCluster prec which)
      (OneParticle (shifted ![1 / 2, 0] honeycombSites) (1 / Real.sqrt 3))) ∧
    (which ∈ ["honeycomb_diphenyl", "honeycomb_10", "diphenyl"] → EveryRun prec 10 (specialCluster prec which)
      (OneParticle (shifted ![0, 0] honeycombSites) (1 / Real.sqrt 3))) ∧
    (which ∈ ["honeycomb_gear", "honeycomb_24", "gear"] → EveryRun prec 24 (specialCluster prec which)
      (OneParticle (shifted ![1 / 2, 0] honeycombSites) (1 / Real.sqrt 3))) := by
  obtain ⟨-, -, -, d⟩ := C94_special hp which
  obtain ⟨-, -, -, -, e', f', g'⟩ := folds_names hp which
  have hd := (d hr).1
  have hd2 := (d hr).2
  have h0 : (1 : ℝ) / Real.sqrt 3 ≠ 0 := inv_sqrt3_pos.ne'
  have co := coord_honeycomb
  generalize (1 : ℝ) / Real.sqrt 3 = dd at *
  refine ⟨fun h => ?_, fun h => ?_, fun h => ?_⟩
  · refine oneParticle_run h0 (by norm_num) (by norm_num) (coordination_shift co _)
      (C54_benzene hp which h) (hd ?_) (e' h)
    simp only [List.mem_cons, List.not_mem_nil, or_false] at h
    rcases h with h | h | h <;> simp [h]
  · exact oneParticle_run h0 (by norm_num) (by norm_num) (coordination_shift co _)
      (C54_diphenyl hp which h) (hd2 h) (f' h)
  · refine oneParticle_run h0 (by norm_num) (by norm_num) (coordination_shift co _)
      (C54_gear hp which h) (hd ?_) (g' h)
    simp only [List.mem_cons, List.not_mem_nil, or_false] at h
    rcases h with h | h | h <;> simp [h]

/-- **C107 (the equation, special clusters).**  `special_cluster` knows these names only (C54). -/
theorem C107_special (hp : 1 ≤ prec) (which : String) :
    (which ∈ ["square_cross", "square_12", "cross"] → EveryRun prec 12 (specialCluster prec which)
      (OneParticle (shifted ![1 / 2, 1 / 2] squareSites) 1)) ∧
    (which ∈ ["square_z", "z", "square_s", "s"] → EveryRun prec 10 (specialCluster prec which)
      (OneParticle (shifted ![1 / 2, 0] squareSites) 1)) ∧
    (which ∈ ["triangle_star", "triangle_13", "star", "SD"] → EveryRun prec 13 (specialCluster prec which)
      (OneParticle (shifted ![0, 0] triangleSites) 1)) ∧
    (1 / Real.sqrt 3 ≤ roundTo prec (1 / Real.sqrt 3) →
      (which ∈ ["honeycomb_benzene", "honeycomb_6", "benzene"] → EveryRun prec 6 (specialCluster prec which)
        (OneParticle (shifted ![1 / 2, 0] honeycombSites) (1 / Real.sqrt 3))) ∧
      (which ∈ ["honeycomb_diphenyl", "honeycomb_10", "diphenyl"] → EveryRun prec 10 (specialCluster prec which)
        (OneParticle (shifted ![0, 0] honeycombSites) (1 / Real.sqrt 3))) ∧
      (which ∈ ["honeycomb_gear", "honeycomb_24", "gear"] → EveryRun prec 24 (specialCluster prec which)
        (OneParticle (shifted ![1 / 2, 0] honeycombSites) (1 / Real.sqrt 3)))) :=
  ⟨(special_bravais hp which).1, (special_bravais hp which).2.1, (special_bravais hp which).2.2,
    special_honeycomb hp which⟩

/-- **C107 (the spectrum, special clusters on Bravais lattices).** -/
theorem C107_spectrum_special (hp : 1 ≤ prec) (which : String) :
    (which ∈ ["square_cross", "square_12", "cross"] → EveryRun prec 12 (specialCluster prec which)
      (BandSpectrum (shifted ![1 / 2, 1 / 2] squareSites) squareSteps)) ∧
    (which ∈ ["square_z", "z", "square_s", "s"] → EveryRun prec 10 (specialCluster prec which)
      (BandSpectrum (shifted ![1 / 2, 0] squareSites) squareSteps)) ∧
    (which ∈ ["triangle_star", "triangle_13", "star", "SD"] → EveryRun prec 13 (specialCluster prec which)
      (BandSpectrum (shifted ![0, 0] triangleSites) triangleSteps)) := by
  obtain ⟨a, b, c, -⟩ := C94_special hp which
  obtain ⟨a', b', c', d', -, -, -⟩ := folds_names hp which
  refine ⟨fun h => bandSpectrum_run one_ne_zero (by norm_num) (by norm_num) (coordination_shift coord_square _)
      (C54_cross hp which h) (a h) (a' h) (bravais_shift bravais_square _) (steps_shift steps_square _), fun h => ?_,
    fun h => bandSpectrum_run one_ne_zero (by norm_num) (by norm_num) (coordination_shift coord_triangle _)
      (C54_star hp which h) (c h) (d' h) (bravais_shift bravais_triangle _) (steps_shift steps_triangle _)⟩
  by_cases hz : which ∈ ["square_z", "z"]
  · exact bandSpectrum_run one_ne_zero (by norm_num) (by norm_num) (coordination_shift coord_square _)
      (C54_z hp which hz) (b h) (b' hz) (bravais_shift bravais_square _) (steps_shift steps_square _)
  · have hs : which ∈ ["square_s", "s"] := by
      simp only [List.mem_cons, List.not_mem_nil, or_false, not_or] at h hz ⊢
      tauto
    exact bandSpectrum_run one_ne_zero (by norm_num) (by norm_num) (coordination_shift coord_square _)
      (C54_s hp which hs) (b h) (c' hs) (bravais_shift bravais_square _) (steps_shift steps_square _)

/-- **C107 (the energies of the special clusters on Bravais lattices).** -/
theorem C107_energies_special (hp : 1 ≤ prec) (which : String) :
    (which ∈ ["square_cross", "square_12", "cross"] → EveryRun prec 12 (specialCluster prec which)
      (Energies 2 fun t (x : Fin 12) =>
        2 * t * (Real.cos (2 * Real.pi * (x : ℕ) / 6) + Real.cos (2 * Real.pi * (x : ℕ) / 4)))) ∧
    (which ∈ ["square_z", "z", "square_s", "s"] → EveryRun prec 10 (specialCluster prec which)
      (Energies 2 fun t (x : Fin 10) =>
        2 * t * (Real.cos (2 * Real.pi * (x : ℕ) / 10) + Real.cos (6 * Real.pi * (x : ℕ) / 10)))) ∧
    (which ∈ ["triangle_star", "triangle_13", "star", "SD"] → EveryRun prec 13 (specialCluster prec which)
      (Energies 2 fun t (x : Fin 13) => 2 * t * (Real.cos (2 * Real.pi * (x : ℕ) / 13) +
        Real.cos (6 * Real.pi * (x : ℕ) / 13) + Real.cos (8 * Real.pi * (x : ℕ) / 13)))) := by
  obtain ⟨a, b, c, -⟩ := C94_special hp which
  obtain ⟨a', b', c', d', -, -, -⟩ := folds_names hp which
  refine ⟨fun h => energies_cross hp h (a h) (a' h), fun h => ?_, fun h => energies_star hp h (c h) (d' h)⟩
  by_cases hz : which ∈ ["square_z", "z"]
  · exact energies_z hp hz (b h) (b' hz)
  · have hs : which ∈ ["square_s", "s"] := by
      simp only [List.mem_cons, List.not_mem_nil, or_false, not_or] at h hz ⊢
      tauto
    exact energies_s hp hs (b h) (c' hs)

/-! ### The hypotheses are met -/

/-- For every lattice that is returned, the coordinates that C108 allows are allowed here. -/
theorem EveryRun.run {m count : ℕ} {r : Py Built} {Q : Lat count m m → ℕ → ℝ → (ℕ → Option (Py Setup)) → Prop}
    (h : EveryRun prec count r Q) {zoom : ℤ} {coordOf : ℝ → Coord}
    (hd : ∀ B, r = .ok B → Distinguishes zoom coordOf B.lat.points) {species : ℕ} (hs : 1 ≤ species)
    (h64 : species * count ≤ 64) (t : ℝ) :
    ∃ L : Lat count m m, r = .ok ⟨count, m, m, L⟩ ∧ Q L species t fun N =>
      clusterSetup id (fun _ => id) zoom coordOf prec L ((List.range species).map fun s : ℕ => (s : ℤ)) t
        [.tuple [.int ((species * count : ℕ) : ℤ), .int (N : ℕ)]] := by
  obtain ⟨L, h1, h2⟩ := h
  exact ⟨L, h1, h2 id (fun l => List.Perm.refl l) (fun _ => id) (fun _ l => List.Perm.refl l) [] zoom coordOf (hd _ h1)
    species hs h64 t⟩

/-- Two electrons with spin on a 2 × 3 square lattice. -/
example (t : ℝ) : ∃ (L : Lat 6 2 2) (U : Setup), latticeGenerator 4 "square" 2 3 1 = .ok ⟨6, 2, 2, L⟩ ∧
    clusterSetup id (fun _ => id) defaultZoom (fun x => .flt (.fin ((⌊x * 2 ^ 30⌋ : ℤ) / 2 ^ 30))) 4 L [0, 1] t
      [.tuple [.int 12, .int 2]] = some (.ok U) ∧
    U.HM.charpoly = energySums 2 fun x : Fin 2 × (Fin 2 × Fin 3) =>
      2 * t * (Real.cos (2 * Real.pi * (x.2.1 : ℕ) / 2) + Real.cos (2 * Real.pi * (x.2.2 : ℕ) / 3)) := by
  obtain ⟨L, h1, h2⟩ := (C107_square (prec := 4) (n0 := 2) (n1 := 3) (n2 := 1) (by norm_num) (by norm_num) (by norm_num)
    (by norm_num)).run (zoom := defaultZoom) (fun B hB => C108_generated (p := 4) (by norm_num) (by norm_num) (by norm_num)
      (by norm_num) (by norm_num) (by norm_num) nearFloats_example _ B hB) (species := 2) (by norm_num) (by decide) t
  obtain ⟨U, hU, hch⟩ := h2 2 (by decide)
  exact ⟨L, U, h1, hU, by exact_mod_cast hch⟩

/-- One electron on a 2 × 2 kagome lattice. -/
example (t : ℝ) : ∃ L : Lat 12 2 2, latticeGenerator 4 "kagome" 2 2 1 = .ok ⟨12, 2, 2, L⟩ ∧
    OneParticle kagomeSites (1 / 2) L 1 t fun N => clusterSetup id (fun _ => id) defaultZoom
      (fun x => .flt (.fin ((⌊x * 2 ^ 30⌋ : ℤ) / 2 ^ 30))) 4 L [0] t [.tuple [.int 12, .int (N : ℕ)]] :=
  (C107_generated (prec := 4) (n0 := 2) (n1 := 2) (n2 := 1) (by norm_num) (by norm_num) (by norm_num)
    (by norm_num)).2.2.2.1.run (zoom := defaultZoom) (fun B hB => C108_generated (p := 4) (by norm_num) (by norm_num)
      (by norm_num) (by norm_num) (by norm_num) (by norm_num) nearFloats_example _ B hB) (species := 1) (by norm_num)
    (by decide) t

end Verif.LDB
