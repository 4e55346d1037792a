import Verif.Proofs.HubbardDensity
import Verif.Props.HubbardSymmetry
import Verif.Props.Numbering
import Verif.Props.Dimer
import Mathlib.LinearAlgebra.Eigenspace.Zero
import Mathlib.LinearAlgebra.Eigenspace.Charpoly
/-!
# C128: how the electrons are distributed over a cluster

Averages of occupation numbers and of products of two of them, in non-degenerate eigenstates and with all functions of the
Hamiltonian.
-/

namespace Verif.LDB

open Verif.Latt Verif.Spec Demo

variable {prec : ℕ} {n0 n1 n2 : ℤ}

theorem evenlyFilled {m count : ℕ} {d : ℝ} {L : Lat count m m} {zoom : ℤ} {coordOf : ℝ → Coord}
    {run : ℝ → ℝ → ℕ → ℕ → Option (Py Setup)} (h : HubbardModel d L zoom coordOf run) : EvenlyFilled d L.points run :=
  ⟨pointSymmetric h, spinBalanced h⟩

/-- **C128 (every generated lattice).** -/
theorem C128_generated (hp : 1 ≤ prec) (h0 : 1 ≤ n0) (h1 : 1 ≤ n1) (h2 : 1 ≤ n2) :
    (2 * n0.toNat ≤ 64 → EveryHubbardRun (m := 1) prec n0.toNat (latticeGenerator prec "chain" n0 n1 n2)
      fun L _ _ run => EvenlyFilled 1 L.points run ∧ UniformDensity n0.toNat run) ∧
    (2 * (n0.toNat * n1.toNat) ≤ 64 →
      EveryHubbardRun (m := 2) prec (n0.toNat * n1.toNat) (latticeGenerator prec "square" n0 n1 n2)
        fun L _ _ run => EvenlyFilled 1 L.points run ∧ UniformDensity (n0.toNat * n1.toNat) run) ∧
    (2 * (n0.toNat * n1.toNat) ≤ 64 →
      EveryHubbardRun (m := 2) prec (n0.toNat * n1.toNat) (latticeGenerator prec "triangle" n0 n1 n2)
        fun L _ _ run => EvenlyFilled 1 L.points run ∧
          (n0 = 1 ∨ n1 = 1 → UniformDensity (n0.toNat * n1.toNat) run)) ∧
    (2 * (n0.toNat * n1.toNat * 3) ≤ 64 →
      EveryHubbardRun (m := 2) prec (n0.toNat * n1.toNat * 3) (latticeGenerator prec "kagome" n0 n1 n2)
        fun L _ _ run => EvenlyFilled (1 / 2) L.points run) ∧
    (2 * (n0.toNat * n1.toNat * n2.toNat) ≤ 64 →
      EveryHubbardRun (m := 3) prec (n0.toNat * n1.toNat * n2.toNat) (latticeGenerator prec "cubic" n0 n1 n2)
        fun L _ _ run => EvenlyFilled 1 L.points run ∧
          UniformDensity (n0.toNat * n1.toNat * n2.toNat) run) ∧
    (1 / Real.sqrt 3 ≤ roundTo prec (1 / Real.sqrt 3) → 2 * (n0.toNat * n1.toNat * 2) ≤ 64 →
      EveryHubbardRun (m := 2) prec (n0.toNat * n1.toNat * 2) (latticeGenerator prec "honeycomb" n0 n1 n2)
        fun L _ _ run => EvenlyFilled (1 / Real.sqrt 3) L.points run ∧ UniformDensity (n0.toNat * n1.toNat * 2) run) := by
  obtain ⟨a, b, c, d, e, f⟩ := C115_generated hp h0 h1 h2
  refine ⟨fun h => (a h).mono fun L hL _ _ run hr => ⟨evenlyFilled hr, uniformDensity hr ?_⟩,
    fun h => (b h).mono fun L hL _ _ run hr => ⟨evenlyFilled hr, uniformDensity hr ?_⟩,
    fun h => (c h).mono fun L hL _ _ run hr => ⟨evenlyFilled hr, fun hn =>
      uniformDensity hr ((triangle_frustrated h0 h1 h2 hL).2 hn)⟩,
    fun h => (d h).mono fun L hL _ _ run hr => evenlyFilled hr,
    fun h => (e h).mono fun L hL _ _ run hr => ⟨evenlyFilled hr, uniformDensity hr ?_⟩,
    fun h3 h => (f h3 h).mono fun L hL _ _ run hr => ⟨evenlyFilled hr, uniformDensity hr ?_⟩⟩
  · exact colourable_of_tiling coloured_chain (C53_chain hp h0 h1 h2) hL
  · exact colourable_of_tiling coloured_square (C53_square hp h0 h1 h2) hL
  · exact colourable_of_tiling coloured_cubic (C53_cubic hp h0 h1 h2) hL
  · exact colourable_of_tiling coloured_honeycomb (C53_honeycomb hp h0 h1 h2) hL

/-- **C128 (every special cluster).** -/
theorem C128_special (hp : 1 ≤ prec) (which : String) :
    (which ∈ ["square_cross", "square_12", "cross"] → EveryHubbardRun (m := 2) prec 12 (specialCluster prec which)
      fun L _ _ run => EvenlyFilled 1 L.points run ∧ UniformDensity 12 run) ∧
    (which ∈ ["square_z", "z", "square_s", "s"] → EveryHubbardRun (m := 2) prec 10 (specialCluster prec which)
      fun L _ _ run => EvenlyFilled 1 L.points run ∧ UniformDensity 10 run) ∧
    (which ∈ ["triangle_star", "triangle_13", "star", "SD"] →
      EveryHubbardRun (m := 2) prec 13 (specialCluster prec which) fun L _ _ run => EvenlyFilled 1 L.points run) ∧
    (1 / Real.sqrt 3 ≤ roundTo prec (1 / Real.sqrt 3) →
      (which ∈ ["honeycomb_benzene", "honeycomb_6", "benzene"] →
        EveryHubbardRun (m := 2) prec 6 (specialCluster prec which)
          fun L _ _ run => EvenlyFilled (1 / Real.sqrt 3) L.points run ∧ UniformDensity 6 run) ∧
      (which ∈ ["honeycomb_diphenyl", "honeycomb_10", "diphenyl"] →
        EveryHubbardRun (m := 2) prec 10 (specialCluster prec which)
          fun L _ _ run => EvenlyFilled (1 / Real.sqrt 3) L.points run ∧ UniformDensity 10 run) ∧
      (which ∈ ["honeycomb_gear", "honeycomb_24", "gear"] →
        EveryHubbardRun (m := 2) prec 24 (specialCluster prec which)
          fun L _ _ run => EvenlyFilled (1 / Real.sqrt 3) L.points run ∧ UniformDensity 24 run)) := by
  obtain ⟨a, b, c, d⟩ := C115_special hp which
  refine ⟨fun h => (a h).mono fun L hL _ _ run hr => ⟨evenlyFilled hr, uniformDensity hr
      (colourable_of_tiling (coloured_square.shift _) (C54_cross hp which h) hL)⟩,
    fun h => (b h).mono fun L hL _ _ run hr => ⟨evenlyFilled hr, uniformDensity hr ?_⟩,
    fun h => (c h).mono fun L hL _ _ run hr => evenlyFilled hr, fun h3 => ?_⟩
  · by_cases hz : which ∈ ["square_z", "z"]
    · exact colourable_of_tiling (coloured_square.shift _) (C54_z hp which hz) hL
    · have hs : which ∈ ["square_s", "s"] := by
        simp only [List.mem_cons, List.not_mem_nil, or_false, not_or] at h hz ⊢
        tauto
      exact colourable_of_tiling (coloured_square.shift _) (C54_s hp which hs) hL
  · obtain ⟨d1, d2, d3⟩ := d h3
    exact ⟨fun h => (d1 h).mono fun L hL _ _ run hr => ⟨evenlyFilled hr, uniformDensity hr
        (colourable_of_tiling (coloured_honeycomb.shift _) (C54_benzene hp which h) hL)⟩,
      fun h => (d2 h).mono fun L hL _ _ run hr => ⟨evenlyFilled hr, uniformDensity hr
        (colourable_of_tiling (coloured_honeycomb.shift _) (C54_diphenyl hp which h) hL)⟩,
      fun h => (d3 h).mono fun L hL _ _ run hr => ⟨evenlyFilled hr, uniformDensity hr
        (colourable_of_tiling (coloured_honeycomb.shift _) (C54_gear hp which h) hL)⟩⟩

/-- **C128 (the chain, explicitly).**  The two ends of a chain are filled alike. -/
theorem C128_mirror (hp : 1 ≤ prec) (h0 : 1 ≤ n0) (h1 : 1 ≤ n1) (h2 : 1 ≤ n2) (hn : 2 * n0.toNat ≤ 64) :
    EveryHubbardRun (m := 1) prec n0.toNat (latticeGenerator prec "chain" n0 n1 n2) fun _ _ _ run =>
      ∀ t U Nup Ndown, Nup ≤ n0.toNat → Ndown ≤ n0.toNat → ∃ V, run t U Nup Ndown = some (.ok V) ∧
        ∀ s : ℕ, s < 2 → ∀ i : Fin n0.toNat, SameAverages V.HM (bothOccupied V (s * n0.toNat + i) (s * n0.toNat + i))
          (bothOccupied V (s * n0.toNat + (n0.toNat - 1 - i)) (s * n0.toNat + (n0.toNat - 1 - i))) := by
  refine ((C128_generated hp h0 h1 h2).1 hn).mono fun L hL _ _ run hr t U a b ha hb => ?_
  obtain ⟨L', hL', hpt⟩ := C123_chain hp h0 h1 h2
  have e : L = L' := by
    have := hL.symm.trans hL'
    simpa using this
  subst e
  obtain ⟨V, hV, h⟩ := hr.1.1 t U a b ha hb
  refine ⟨V, hV, fun s hs i => ?_⟩
  have hrev : ∀ i : Fin n0.toNat, ((Fin.revPerm i : Fin n0.toNat) : ℕ) = n0.toNat - 1 - i := fun i => by
    rw [Fin.revPerm_apply, Fin.val_rev]
    omega
  have := h Fin.revPerm (fun i j => by
    rw [hpt, hpt, hpt, hpt, hrev, hrev]
    have hi := i.2
    have hj := j.2
    have c : ∀ x : Fin n0.toNat, ((n0.toNat - 1 - x : ℕ) : ℝ) = (n0.toNat : ℝ) - 1 - x := fun x => by
      have := x.2
      rw [Nat.cast_sub (by omega), Nat.cast_sub (by omega)]
      norm_num
    simp only [ndist, c]
    simp only [Finset.univ_unique, Fin.default_eq_zero, Fin.isValue, Matrix.cons_val_fin_one,
      Finset.sum_singleton, Real.sqrt_sq_eq_abs]
    rw [show (n0.toNat : ℝ) - 1 - i - ((n0.toNat : ℝ) - 1 - j) = -((i : ℝ) - j) by ring, abs_neg]) s hs s hs i i
  rwa [hrev] at this

/-! ### The hypotheses are met -/

theorem eq_smul_of_finrank_le {N : ℕ} {S : Submodule ℂ (Fin N → ℂ)} (h : Module.finrank ℂ S ≤ 1) {v w : Fin N → ℂ}
    (hv : v ∈ S) (h0 : v ≠ 0) (hw : w ∈ S) : ∃ z : ℂ, w = z • v := by
  obtain ⟨u, hu⟩ := finrank_le_one_iff.1 h
  obtain ⟨a, ha⟩ := hu ⟨v, hv⟩
  obtain ⟨b, hb⟩ := hu ⟨w, hw⟩
  have ha' : a • (u : Fin N → ℂ) = v := congrArg Subtype.val ha
  have hb' : b • (u : Fin N → ℂ) = w := congrArg Subtype.val hb
  have hne : a ≠ 0 := by
    rintro rfl
    exact h0 (by rw [← ha', zero_smul])
  exact ⟨b / a, by rw [← ha', ← hb', smul_smul, div_mul_cancel₀ _ hne]⟩

theorem simple_of_charpoly {N : ℕ} {M : Matrix (Fin N) (Fin N) ℂ} {E : ℂ} {p : Polynomial ℂ}
    (h : M.charpoly = (Polynomial.X - Polynomial.C E) * p) (hp : p.eval E ≠ 0) : ∃ v, SimpleState M v := by
  have hc : (Matrix.toLin' M).charpoly = M.charpoly := Matrix.charpoly_toLin' M
  have hroot : (Matrix.toLin' M).charpoly.IsRoot E := by
    rw [hc, h]
    simp
  have hev := (Module.End.hasEigenvalue_iff_isRoot_charpoly (Matrix.toLin' M) E).2 hroot
  obtain ⟨v, hv⟩ := hev.exists_hasEigenvector
  have hmul : (Matrix.toLin' M).charpoly.rootMultiplicity E = 1 := by
    have hne : (Polynomial.X - Polynomial.C E) * p ≠ 0 := mul_ne_zero (Polynomial.X_sub_C_ne_zero E) fun h0 => hp (by simp [h0])
    rw [hc, h, Polynomial.rootMultiplicity_mul hne, Polynomial.rootMultiplicity_X_sub_C_self,
      Polynomial.rootMultiplicity_eq_zero hp]
  have hfr : Module.finrank ℂ (Module.End.eigenspace (Matrix.toLin' M) E) ≤ 1 :=
    hmul ▸ LinearMap.finrank_eigenspace_le (Matrix.toLin' M) E
  refine ⟨v, hv.2, E, ?_, fun w hw => ?_⟩
  · simpa [Matrix.toLin'_apply] using hv.apply_eq_smul
  · have hw' : w ∈ Module.End.eigenspace (Matrix.toLin' M) E := by
      rw [Module.End.mem_eigenspace_iff, Matrix.toLin'_apply]
      exact hw
    obtain ⟨z, hz⟩ := eq_smul_of_finrank_le hfr hv.1 hv.2 hw'
    exact ⟨z, hz⟩

/-- The chain of two points with `t = -1`, `U = 3` and one electron of each spin has a non-degenerate eigenstate, and in
it there is one electron on the first point, with either spin equally often. -/
example : ∃ (L : Lat 2 1 1) (V : Setup), latticeGenerator 4 "chain" 2 1 1 = .ok ⟨2, 1, 1, L⟩ ∧
    hubbardClusterSetup id (fun _ => id) defaultZoom (fun x => .flt (.fin ((⌊x * 2 ^ 30⌋ : ℤ) / 2 ^ 30))) 4 L (-1) 3 1 1 =
      some (.ok V) ∧ ∃ v, SimpleState V.HM v ∧
        expectation (bothOccupied V 0 0 + bothOccupied V 2 2) v = expectation 1 v ∧
        expectation (bothOccupied V 0 0) v = expectation (bothOccupied V 2 2) v := by
  have dist : ∀ B, latticeGenerator 4 "chain" 2 1 1 = .ok B → Distinguishes defaultZoom
      (fun x => .flt (.fin ((⌊x * 2 ^ 30⌋ : ℤ) / 2 ^ 30))) B.lat.points :=
    fun B hB => C108_generated (p := 4) (by norm_num) (by norm_num) (by norm_num)
      (by norm_num) (by norm_num) (by norm_num) nearFloats_example _ B hB
  obtain ⟨L, h1, h2⟩ := (C126_chain (prec := 4) (n1 := 1) (n2 := 1) (by norm_num) (by norm_num) (by norm_num)).run dist
  obtain ⟨L', h1', h2'⟩ := ((C128_generated (prec := 4) (n0 := 2) (n1 := 1) (n2 := 1) (by norm_num) (by norm_num)
    (by norm_num) (by norm_num)).1 (by decide)).run dist
  have e : L' = L := by
    have := h1'.symm.trans h1
    simpa using this
  subst e
  obtain ⟨V, hV, hc⟩ := (h2.1 (-1) 3).2.2.2.2.2.1
  obtain ⟨V', hV', hu⟩ := h2'.2 (-1) 3 1 1 (by decide)
  obtain ⟨V'', hV'', hs⟩ := h2'.1.2 (-1) 3 1 (by decide)
  have e' : V = V' := by
    have := hV.symm.trans hV'
    simpa using this
  have e'' : V = V'' := by
    have := hV.symm.trans hV''
    simpa using this
  rw [← e'] at hu
  rw [← e''] at hs
  rw [show (3 : ℝ) ^ 2 + 16 * (-1) ^ 2 = 5 ^ 2 by norm_num, Real.sqrt_sq (by norm_num), List.map_cons,
    List.prod_cons] at hc
  obtain ⟨v, hv⟩ := simple_of_charpoly hc (by
    simp only [List.map_cons, List.map_nil, List.prod_cons, List.prod_nil, Polynomial.eval_mul, Polynomial.eval_sub,
      Polynomial.eval_X, Polynomial.eval_C, Polynomial.eval_one]
    norm_num)
  exact ⟨L', V, h1, hV, v, hv, (hu ⟨0, by decide⟩).1 v hv,
    (hs 0 (by decide) 0 (by decide) ⟨0, by decide⟩ ⟨0, by decide⟩).1 v hv⟩

end Verif.LDB
