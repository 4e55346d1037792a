import Verif.Proofs.HubbardLowest
import Verif.Props.HubbardCluster
/-!
# C118: the Hubbard spectra without interaction, and the effect of the interaction on the lowest energy

Without interaction the script finds the energies of independent electrons; the interaction moves the lowest energy within
sharp bounds.
-/

namespace Verif.LDB

open Verif.Latt Verif.Spec Demo

variable {prec : ℕ} {n0 n1 n2 : ℤ}

/-- **C118 (every generated lattice).** -/
theorem C118_generated (hp : 1 ≤ prec) (h0 : 1 ≤ n0) (h1 : 1 ≤ n1) (h2 : 1 ≤ n2) :
    (2 * n0.toNat ≤ 64 → EveryHubbardRun (m := 1) prec n0.toNat (latticeGenerator prec "chain" n0 n1 n2)
      fun L _ _ run => HubbardLimits 1 L.points run) ∧
    (2 * (n0.toNat * n1.toNat) ≤ 64 →
      EveryHubbardRun (m := 2) prec (n0.toNat * n1.toNat) (latticeGenerator prec "square" n0 n1 n2)
        fun L _ _ run => HubbardLimits 1 L.points run) ∧
    (2 * (n0.toNat * n1.toNat) ≤ 64 →
      EveryHubbardRun (m := 2) prec (n0.toNat * n1.toNat) (latticeGenerator prec "triangle" n0 n1 n2)
        fun L _ _ run => HubbardLimits 1 L.points run) ∧
    (2 * (n0.toNat * n1.toNat * 3) ≤ 64 →
      EveryHubbardRun (m := 2) prec (n0.toNat * n1.toNat * 3) (latticeGenerator prec "kagome" n0 n1 n2)
        fun L _ _ run => HubbardLimits (1 / 2) L.points run) ∧
    (2 * (n0.toNat * n1.toNat * n2.toNat) ≤ 64 →
      EveryHubbardRun (m := 3) prec (n0.toNat * n1.toNat * n2.toNat) (latticeGenerator prec "cubic" n0 n1 n2)
        fun L _ _ run => HubbardLimits 1 L.points run) ∧
    (1 / Real.sqrt 3 ≤ roundTo prec (1 / Real.sqrt 3) → 2 * (n0.toNat * n1.toNat * 2) ≤ 64 →
      EveryHubbardRun (m := 2) prec (n0.toNat * n1.toNat * 2) (latticeGenerator prec "honeycomb" n0 n1 n2)
        fun L _ _ run => HubbardLimits (1 / Real.sqrt 3) L.points run) := by
  obtain ⟨a, b, c, d, e, f⟩ := C115_generated hp h0 h1 h2
  exact ⟨fun h => (a h).mono fun L hL _ _ run hr => hubbardLimits hr,
    fun h => (b h).mono fun L hL _ _ run hr => hubbardLimits hr,
    fun h => (c h).mono fun L hL _ _ run hr => hubbardLimits hr,
    fun h => (d h).mono fun L hL _ _ run hr => hubbardLimits hr,
    fun h => (e h).mono fun L hL _ _ run hr => hubbardLimits hr,
    fun h3 h => (f h3 h).mono fun L hL _ _ run hr => hubbardLimits hr⟩

/-- **C118 (every special cluster).** -/
theorem C118_special (hp : 1 ≤ prec) (which : String) :
    (which ∈ ["square_cross", "square_12", "cross"] → EveryHubbardRun (m := 2) prec 12 (specialCluster prec which)
      fun L _ _ run => HubbardLimits 1 L.points run) ∧
    (which ∈ ["square_z", "z", "square_s", "s"] → EveryHubbardRun (m := 2) prec 10 (specialCluster prec which)
      fun L _ _ run => HubbardLimits 1 L.points run) ∧
    (which ∈ ["triangle_star", "triangle_13", "star", "SD"] →
      EveryHubbardRun (m := 2) prec 13 (specialCluster prec which) fun L _ _ run => HubbardLimits 1 L.points run) ∧
    (1 / Real.sqrt 3 ≤ roundTo prec (1 / Real.sqrt 3) →
      (which ∈ ["honeycomb_benzene", "honeycomb_6", "benzene"] →
        EveryHubbardRun (m := 2) prec 6 (specialCluster prec which)
          fun L _ _ run => HubbardLimits (1 / Real.sqrt 3) L.points run) ∧
      (which ∈ ["honeycomb_diphenyl", "honeycomb_10", "diphenyl"] →
        EveryHubbardRun (m := 2) prec 10 (specialCluster prec which)
          fun L _ _ run => HubbardLimits (1 / Real.sqrt 3) L.points run) ∧
      (which ∈ ["honeycomb_gear", "honeycomb_24", "gear"] →
        EveryHubbardRun (m := 2) prec 24 (specialCluster prec which)
          fun L _ _ run => HubbardLimits (1 / Real.sqrt 3) L.points run)) := by
  obtain ⟨a, b, c, d⟩ := C115_special hp which
  refine ⟨fun h => (a h).mono fun L hL _ _ run hr => hubbardLimits hr,
    fun h => (b h).mono fun L hL _ _ run hr => hubbardLimits hr,
    fun h => (c h).mono fun L hL _ _ run hr => hubbardLimits hr, fun h3 => ?_⟩
  obtain ⟨d1, d2, d3⟩ := d h3
  exact ⟨fun h => (d1 h).mono fun L hL _ _ run hr => hubbardLimits hr,
    fun h => (d2 h).mono fun L hL _ _ run hr => hubbardLimits hr,
    fun h => (d3 h).mono fun L hL _ _ run hr => hubbardLimits hr⟩

/-! ### The hypotheses are met -/

/-- Four up and three down electrons on the 2 × 3 square lattice: the lowest energy exists; switching on `U = 2` raises it
by at least 2 (seven electrons on six points) and at most 6 (three pairs). -/
example (t : ℝ) : ∃ (L : Lat 6 2 2) (V V' : Setup) (E E' : ℝ), latticeGenerator 4 "square" 2 3 1 = .ok ⟨6, 2, 2, L⟩ ∧
    hubbardClusterSetup id (fun _ => id) defaultZoom (fun x => .flt (.fin ((⌊x * 2 ^ 30⌋ : ℤ) / 2 ^ 30))) 4 L t 0 4 3 =
      some (.ok V) ∧
    hubbardClusterSetup id (fun _ => id) defaultZoom (fun x => .flt (.fin ((⌊x * 2 ^ 30⌋ : ℤ) / 2 ^ 30))) 4 L t 2 4 3 =
      some (.ok V') ∧ IsLowest V.HM E ∧ IsLowest V'.HM E' ∧ E + 2 ≤ E' ∧ E' ≤ E + 6 := by
  obtain ⟨L, h1, h2⟩ := ((C118_generated (prec := 4) (n0 := 2) (n1 := 3) (n2 := 1) (by norm_num) (by norm_num)
    (by norm_num) (by norm_num)).2.1 (by decide)).run (zoom := defaultZoom)
    (fun B hB => C108_generated (p := 4) (by norm_num) (by norm_num) (by norm_num)
      (by norm_num) (by norm_num) (by norm_num) nearFloats_example _ B hB)
  obtain ⟨E, hE, hb, -⟩ := h2.2 4 3 (by decide) (by decide)
  obtain ⟨V, hV, hl⟩ := hE t 0
  obtain ⟨V', hV', hl'⟩ := hE t 2
  obtain ⟨b1, b2⟩ := hb t 0 2 (by norm_num)
  rw [zero_add] at b1 b2
  refine ⟨L, V, V', E t 0, E t 2, h1, hV, hV', hl, hl', ?_, ?_⟩
  · rw [show 4 + 3 - Int.toNat 2 * Int.toNat 3 = 1 from rfl] at b1
    norm_num at b1
    exact b1
  · refine le_trans b2 (le_of_eq ?_)
    norm_num

/-- Two points at distance one: the hopping matrix is not zero. -/
example : clusterHopping 1 (![![0], ![1]] : Fin 2 → Pt 1) 3 0 1 = 3 := by
  have : ndist (![0] : Pt 1) ![1] = 1 := by simp [ndist]
  simp [clusterHopping, this]

/-- The lowest energy of a two-level system. -/
example : IsLowest (Matrix.diagonal ![(2 : ℂ), -1]) (-1) := by
  refine ⟨⟨![0, 1], fun h => by simpa using congrFun h 1, ?_⟩, fun z v hv h => ?_⟩
  · funext i
    fin_cases i <;> simp [Matrix.mulVec_diagonal]
  · have a0 := congrFun h 0
    have a1 := congrFun h 1
    rw [Matrix.mulVec_diagonal] at a0 a1
    simp at a0 a1
    by_cases h1 : v 1 = 0
    · have h0 : v 0 ≠ 0 := fun h0 => hv (by funext i; fin_cases i <;> simp [h0, h1])
      have : z = 2 := by
        rcases a0 with a | a
        · exact a.symm
        · exact absurd a h0
      subst this
      norm_num
    · have : z = -1 := by
        have : (z + 1) * v 1 = 0 := by linear_combination -a1
        rcases mul_eq_zero.1 this with a | a
        · linear_combination a
        · exact absurd a h1
      subst this
      norm_num

end Verif.LDB
