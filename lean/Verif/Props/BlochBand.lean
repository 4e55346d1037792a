import Verif.Proofs.BlochRuns
import Verif.Spec.BlochBand
/-!
# C109: the energies of the tight-binding model on the honeycomb and kagome lattices, end to end
-/

namespace Verif.LDB

open Verif.Latt Demo

variable {prec : ℕ} {n0 n1 n2 : ℤ}

/-- **C109 (honeycomb).** -/
theorem C109_honeycomb (hp : 1 ≤ prec) (h0 : 1 ≤ n0) (h1 : 1 ≤ n1) (h2 : 1 ≤ n2)
    (hr : 1 / Real.sqrt 3 ≤ roundTo prec (1 / Real.sqrt 3)) :
    EveryRun prec (n0.toNat * n1.toNat * 2) (latticeGenerator prec "honeycomb" n0 n1 n2)
      (Energies 2 fun t (x : (Fin n0.toNat × Fin n1.toNat) × Fin 2) =>
        honeycombBand t (phase x.1.1 n0) (phase x.1.2 n1) x.2) :=
  energies_honeycomb hp h0 h1 h2 hr

/-- **C109 (kagome).** -/
theorem C109_kagome (hp : 1 ≤ prec) (h0 : 1 ≤ n0) (h1 : 1 ≤ n1) (h2 : 1 ≤ n2) :
    EveryRun prec (n0.toNat * n1.toNat * 3) (latticeGenerator prec "kagome" n0 n1 n2)
      (Energies 2 fun t (x : (Fin n0.toNat × Fin n1.toNat) × Fin 3) =>
        kagomeBand t (phase x.1.1 n0) (phase x.1.2 n1) x.2) :=
  energies_kagome hp h0 h1 h2

/-- **C109 (special clusters of the honeycomb lattice).** -/
theorem C109_special (hp : 1 ≤ prec) (which : String) (hr : 1 / Real.sqrt 3 ≤ roundTo prec (1 / Real.sqrt 3)) :
    (which ∈ ["honeycomb_benzene", "honeycomb_6", "benzene"] → EveryRun prec 6 (specialCluster prec which)
      (Energies 2 fun t (x : Fin 3 × Fin 2) => honeycombBand t (phase x.1 3) (-phase x.1 3) x.2)) ∧
    (which ∈ ["honeycomb_diphenyl", "honeycomb_10", "diphenyl"] → EveryRun prec 10 (specialCluster prec which)
      (Energies 2 fun t (x : Fin 5 × Fin 2) => honeycombBand t (phase x.1 5) (-(2 * phase x.1 5)) x.2)) ∧
    (which ∈ ["honeycomb_gear", "honeycomb_24", "gear"] → EveryRun prec 24 (specialCluster prec which)
      (Energies 2 fun t (x : (Fin 6 × Fin 2) × Fin 2) =>
        honeycombBand t (phase x.1.1 6) (phase x.1.2 2 - phase x.1.1 6) x.2)) := by
  obtain ⟨-, -, -, d⟩ := C94_special hp which
  obtain ⟨-, -, -, -, e', f', g'⟩ := folds_names hp which
  refine ⟨fun h => ?_, fun h => ?_, fun h => ?_⟩
  · refine energies_benzene hp h ((d hr).1 ?_) (e' h)
    simp only [List.mem_cons, List.not_mem_nil, or_false] at h
    rcases h with h | h | h <;> simp [h]
  · exact energies_diphenyl hp h ((d hr).2 h) (f' h)
  · refine energies_gear hp h ((d hr).1 ?_) (g' h)
    simp only [List.mem_cons, List.not_mem_nil, or_false] at h
    rcases h with h | h | h <;> simp [h]

/-! ### The hypotheses are met -/

/-- One electron with spin on a 2 × 2 kagome lattice. -/
example (t : ℝ) : ∃ (L : Lat 12 2 2) (U : Setup), latticeGenerator 4 "kagome" 2 2 1 = .ok ⟨12, 2, 2, L⟩ ∧
    clusterSetup id (fun _ => id) defaultZoom (fun x => .flt (.fin ((⌊x * 2 ^ 30⌋ : ℤ) / 2 ^ 30))) 4 L [0, 1] t
      [.tuple [.int 24, .int 1]] = some (.ok U) ∧
    U.HM.charpoly = energySums 1 fun x : Fin 2 × ((Fin 2 × Fin 2) × Fin 3) =>
      kagomeBand t (phase x.2.1.1 2) (phase x.2.1.2 2) x.2.2 := by
  obtain ⟨L, h1, h2⟩ := (C109_kagome (prec := 4) (n0 := 2) (n1 := 2) (n2 := 1) (by norm_num) (by norm_num) (by norm_num)
    (by norm_num)).run (zoom := defaultZoom) (fun B hB => C108_generated (p := 4) (by norm_num) (by norm_num) (by norm_num)
      (by norm_num) (by norm_num) (by norm_num) nearFloats_example _ B hB) (species := 2) (by norm_num) (by decide) t
  obtain ⟨U, hU, hch⟩ := h2 1 (by decide)
  exact ⟨L, U, h1, hU, by exact_mod_cast hch⟩

/-- Four electrons on the benzene ring, with the default precision. -/
example (t : ℝ) : ∃ (L : Lat 6 2 2) (U : Setup), specialCluster 4 "benzene" = .ok ⟨6, 2, 2, L⟩ ∧
    clusterSetup id (fun _ => id) defaultZoom (fun x => .flt (.fin ((⌊x * 2 ^ 30⌋ : ℤ) / 2 ^ 30))) 4 L [0, 1] t
      [.tuple [.int 12, .int 4]] = some (.ok U) ∧
    U.HM.charpoly = energySums 4 fun x : Fin 2 × (Fin 3 × Fin 2) =>
      honeycombBand t (phase x.2.1 3) (-phase x.2.1 3) x.2.2 := by
  obtain ⟨L, h1, h2⟩ := ((C109_special (prec := 4) (by norm_num) "benzene" C94_precision.1).1 (by simp)).run
    (zoom := defaultZoom) (fun B hB => C108_special (p := 4) (by norm_num) (by norm_num) (by norm_num) nearFloats_example _ B hB) (species := 2)
    (by norm_num) (by decide) t
  obtain ⟨U, hU, hch⟩ := h2 4 (by decide)
  exact ⟨L, U, h1, hU, by exact_mod_cast hch⟩

end Verif.LDB
