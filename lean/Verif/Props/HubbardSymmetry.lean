import Verif.Proofs.HubbardBipartite
import Verif.Proofs.HubbardFrustrated
import Verif.Props.HubbardCluster
/-!
# C116: the symmetries of the Hubbard model in the spectra the script computes

Spin exchange, spin multiplets and the atomic limit hold on every cluster; particle-hole symmetry and the irrelevance of
the sign of the hopping on the bipartite ones, and the latter on no other.
-/

namespace Verif.LDB

open Verif.Latt Verif.Spec Demo

variable {prec : ℕ} {n0 n1 n2 : ℤ}

/-- **C116 (every generated lattice).** -/
theorem C116_generated (hp : 1 ≤ prec) (h0 : 1 ≤ n0) (h1 : 1 ≤ n1) (h2 : 1 ≤ n2) :
    (2 * n0.toNat ≤ 64 → EveryHubbardRun (m := 1) prec n0.toNat (latticeGenerator prec "chain" n0 n1 n2)
      fun _ _ _ run => AnyCluster n0.toNat run ∧ BipartiteCluster n0.toNat run) ∧
    (2 * (n0.toNat * n1.toNat) ≤ 64 →
      EveryHubbardRun (m := 2) prec (n0.toNat * n1.toNat) (latticeGenerator prec "square" n0 n1 n2)
        fun _ _ _ run => AnyCluster (n0.toNat * n1.toNat) run ∧ BipartiteCluster (n0.toNat * n1.toNat) run) ∧
    (2 * (n0.toNat * n1.toNat) ≤ 64 →
      EveryHubbardRun (m := 2) prec (n0.toNat * n1.toNat) (latticeGenerator prec "triangle" n0 n1 n2)
        fun _ _ _ run => AnyCluster (n0.toNat * n1.toNat) run ∧
          (n0 = 1 ∨ n1 = 1 → BipartiteCluster (n0.toNat * n1.toNat) run)) ∧
    (2 * (n0.toNat * n1.toNat * 3) ≤ 64 →
      EveryHubbardRun (m := 2) prec (n0.toNat * n1.toNat * 3) (latticeGenerator prec "kagome" n0 n1 n2)
        fun _ _ _ run => AnyCluster (n0.toNat * n1.toNat * 3) run) ∧
    (2 * (n0.toNat * n1.toNat * n2.toNat) ≤ 64 →
      EveryHubbardRun (m := 3) prec (n0.toNat * n1.toNat * n2.toNat) (latticeGenerator prec "cubic" n0 n1 n2)
        fun _ _ _ run => AnyCluster (n0.toNat * n1.toNat * n2.toNat) run ∧
          BipartiteCluster (n0.toNat * n1.toNat * n2.toNat) run) ∧
    (1 / Real.sqrt 3 ≤ roundTo prec (1 / Real.sqrt 3) → 2 * (n0.toNat * n1.toNat * 2) ≤ 64 →
      EveryHubbardRun (m := 2) prec (n0.toNat * n1.toNat * 2) (latticeGenerator prec "honeycomb" n0 n1 n2)
        fun _ _ _ run => AnyCluster (n0.toNat * n1.toNat * 2) run ∧ BipartiteCluster (n0.toNat * n1.toNat * 2) run) := by
  obtain ⟨a, b, c, d, e, f⟩ := C115_generated hp h0 h1 h2
  refine ⟨fun h => (a h).mono fun L hL _ _ run hr => ⟨anyCluster hr, bipartiteCluster hr ?_⟩,
    fun h => (b h).mono fun L hL _ _ run hr => ⟨anyCluster hr, bipartiteCluster hr ?_⟩,
    fun h => (c h).mono fun L hL _ _ run hr => ⟨anyCluster hr, fun hn =>
      bipartiteCluster hr ((triangle_frustrated h0 h1 h2 hL).2 hn)⟩,
    fun h => (d h).mono fun L hL _ _ run hr => anyCluster hr,
    fun h => (e h).mono fun L hL _ _ run hr => ⟨anyCluster hr, bipartiteCluster hr ?_⟩,
    fun h3 h => (f h3 h).mono fun L hL _ _ run hr => ⟨anyCluster hr, bipartiteCluster hr ?_⟩⟩
  · exact colourable_of_tiling coloured_chain (C53_chain hp h0 h1 h2) hL
  · exact colourable_of_tiling coloured_square (C53_square hp h0 h1 h2) hL
  · exact colourable_of_tiling coloured_cubic (C53_cubic hp h0 h1 h2) hL
  · exact colourable_of_tiling coloured_honeycomb (C53_honeycomb hp h0 h1 h2) hL

/-- **C116 (every special cluster).** -/
theorem C116_special (hp : 1 ≤ prec) (which : String) :
    (which ∈ ["square_cross", "square_12", "cross"] → EveryHubbardRun (m := 2) prec 12 (specialCluster prec which)
      fun _ _ _ run => AnyCluster 12 run ∧ BipartiteCluster 12 run) ∧
    (which ∈ ["square_z", "z", "square_s", "s"] → EveryHubbardRun (m := 2) prec 10 (specialCluster prec which)
      fun _ _ _ run => AnyCluster 10 run ∧ BipartiteCluster 10 run) ∧
    (which ∈ ["triangle_star", "triangle_13", "star", "SD"] →
      EveryHubbardRun (m := 2) prec 13 (specialCluster prec which) fun _ _ _ run => AnyCluster 13 run) ∧
    (1 / Real.sqrt 3 ≤ roundTo prec (1 / Real.sqrt 3) →
      (which ∈ ["honeycomb_benzene", "honeycomb_6", "benzene"] →
        EveryHubbardRun (m := 2) prec 6 (specialCluster prec which)
          fun _ _ _ run => AnyCluster 6 run ∧ BipartiteCluster 6 run) ∧
      (which ∈ ["honeycomb_diphenyl", "honeycomb_10", "diphenyl"] →
        EveryHubbardRun (m := 2) prec 10 (specialCluster prec which)
          fun _ _ _ run => AnyCluster 10 run ∧ BipartiteCluster 10 run) ∧
      (which ∈ ["honeycomb_gear", "honeycomb_24", "gear"] →
        EveryHubbardRun (m := 2) prec 24 (specialCluster prec which)
          fun _ _ _ run => AnyCluster 24 run ∧ BipartiteCluster 24 run)) := by
  obtain ⟨a, b, c, d⟩ := C115_special hp which
  refine ⟨fun h => (a h).mono fun L hL _ _ run hr => ⟨anyCluster hr, bipartiteCluster hr
      (colourable_of_tiling (coloured_square.shift _) (C54_cross hp which h) hL)⟩,
    fun h => (b h).mono fun L hL _ _ run hr => ⟨anyCluster hr, bipartiteCluster hr ?_⟩,
    fun h => (c h).mono fun L hL _ _ run hr => anyCluster hr, fun h3 => ?_⟩
  · by_cases hz : which ∈ ["square_z", "z"]
    · exact colourable_of_tiling (coloured_square.shift _) (C54_z hp which hz) hL
    · have hs : which ∈ ["square_s", "s"] := by
        simp only [List.mem_cons, List.not_mem_nil, or_false, not_or] at h hz ⊢
        tauto
      exact colourable_of_tiling (coloured_square.shift _) (C54_s hp which hs) hL
  · obtain ⟨d1, d2, d3⟩ := d h3
    exact ⟨fun h => (d1 h).mono fun L hL _ _ run hr => ⟨anyCluster hr, bipartiteCluster hr
        (colourable_of_tiling (coloured_honeycomb.shift _) (C54_benzene hp which h) hL)⟩,
      fun h => (d2 h).mono fun L hL _ _ run hr => ⟨anyCluster hr, bipartiteCluster hr
        (colourable_of_tiling (coloured_honeycomb.shift _) (C54_diphenyl hp which h) hL)⟩,
      fun h => (d3 h).mono fun L hL _ _ run hr => ⟨anyCluster hr, bipartiteCluster hr
        (colourable_of_tiling (coloured_honeycomb.shift _) (C54_gear hp which h) hL)⟩⟩

/-- **C116 (frustrated clusters).**  On the triangular lattice with at least two rows and two columns, on the kagome lattice
and on the star of David the sign of the hopping does matter. -/
theorem C116_frustrated (hp : 1 ≤ prec) (h0 : 1 ≤ n0) (h1 : 1 ≤ n1) (h2 : 1 ≤ n2) (which : String) :
    (2 * (n0.toNat * n1.toNat) ≤ 64 →
      EveryHubbardRun (m := 2) prec (n0.toNat * n1.toNat) (latticeGenerator prec "triangle" n0 n1 n2)
        fun _ _ _ run => HoppingSign (n0.toNat * n1.toNat) run ↔ n0 = 1 ∨ n1 = 1) ∧
    (2 * (n0.toNat * n1.toNat * 3) ≤ 64 →
      EveryHubbardRun (m := 2) prec (n0.toNat * n1.toNat * 3) (latticeGenerator prec "kagome" n0 n1 n2)
        fun _ _ _ run => ¬ HoppingSign (n0.toNat * n1.toNat * 3) run) ∧
    (which ∈ ["triangle_star", "triangle_13", "star", "SD"] →
      EveryHubbardRun (m := 2) prec 13 (specialCluster prec which) fun _ _ _ run => ¬ HoppingSign 13 run) := by
  obtain ⟨-, -, c, d, -, -⟩ := C115_generated hp h0 h1 h2
  obtain ⟨-, -, s, -⟩ := C115_special hp which
  have p01 : 1 ≤ n0.toNat * n1.toNat := Nat.mul_pos (by omega) (by omega)
  refine ⟨fun h => (c h).mono fun L hL _ _ run hr => (sign_iff_colourable one_ne_zero p01 hr).trans
      (triangle_frustrated h0 h1 h2 hL),
    fun h => (d h).mono fun L hL _ _ run hr => ?_, fun h => (s h).mono fun L hL _ _ run hr => ?_⟩
  · rw [sign_iff_colourable (by norm_num) (by omega) hr]
    exact kagome_frustrated h0 h1 h2 hL
  · rw [sign_iff_colourable one_ne_zero (by norm_num) hr]
    exact star_frustrated h hL

/-! ### The hypotheses are met -/

/-- Two up electrons and one down electron on the 2 × 3 square lattice: the runs exist, and the energies with the opposite
hopping are the same. -/
example (t U : ℝ) : ∃ (L : Lat 6 2 2) (V V' : Setup), latticeGenerator 4 "square" 2 3 1 = .ok ⟨6, 2, 2, L⟩ ∧
    hubbardClusterSetup id (fun _ => id) defaultZoom (fun x => .flt (.fin ((⌊x * 2 ^ 30⌋ : ℤ) / 2 ^ 30))) 4 L t U 2 1 =
      some (.ok V) ∧
    hubbardClusterSetup id (fun _ => id) defaultZoom (fun x => .flt (.fin ((⌊x * 2 ^ 30⌋ : ℤ) / 2 ^ 30))) 4 L (-t) U 2 1 =
      some (.ok V') ∧ V.HM.charpoly = V'.HM.charpoly := by
  obtain ⟨L, h1, h2⟩ := ((C116_generated (prec := 4) (n0 := 2) (n1 := 3) (n2 := 1) (by norm_num) (by norm_num)
    (by norm_num) (by norm_num)).2.1 (by decide)).run (zoom := defaultZoom)
    (fun B hB => C108_generated (p := 4) (by norm_num) (by norm_num) (by norm_num)
      (by norm_num) (by norm_num) (by norm_num) nearFloats_example _ B hB)
  obtain ⟨V, V', h3, h4, h5⟩ := h2.2.1 t U 2 1 (by decide) (by decide)
  exact ⟨L, V, V', h1, h3, h4, h5⟩

/-- Two points at distance one can be coloured, three cannot. -/
example : TwoColourable 1 (![![0], ![1]] : Fin 2 → Pt 1) ∧
    ¬ TwoColourable 1 (![![0, 0], ![1, 0], ![1 / 2, r3 / 2]] : Fin 3 → Pt 2) := by
  have h3 : r3 * r3 = 3 := r3_sq
  refine ⟨⟨![true, false], fun i j h => ?_⟩, not_twoColourable (i := 0) (j := 1) (k := 2) ?_ ?_ ?_⟩
  · fin_cases i <;> fin_cases j <;> simp [ndist] at h ⊢
  all_goals
    rw [ndist_eq_iff zero_le_one, Fin.sum_univ_two]
    simp
    try nlinarith

end Verif.LDB
