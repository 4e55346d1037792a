import Verif.Proofs.LatticeSitesBuilt
/-!
# C108: the points of the built-in lattices are different sites

The operators identify a site by its coordinates, as floats, zoomed and truncated.
-/

namespace Verif.LDB

open Verif.Latt Demo

variable {prec p : ℕ} {n0 n1 n2 : ℤ} {coordOf : ℝ → Coord}

/-- **C108 (generated lattices).**  Two to twenty-two digits; whatever lattice `lattice_generator` returns, its points
are accepted as sites, and different points are different sites. -/
theorem C108_generated (hprec : 1 ≤ prec) (b0 : n0 ≤ 30000) (b1 : n1 ≤ 30000) (b2 : n2 ≤ 30000) (hp2 : 2 ≤ p)
    (hp : p ≤ 22) (hf : NearFloats coordOf) (which : String) (B : Built)
    (hB : latticeGenerator prec which n0 n1 n2 = .ok B) : Distinguishes (10 ^ p) coordOf B.lat.points := by
  obtain ⟨h0, h1, h2⟩ := sizes_pos hB
  by_cases c1 : which = "chain"
  · subst c1; exact sites_chain hprec h0 h1 h2 b0 hp2 hp hf hB
  by_cases c2 : which = "cubic"
  · subst c2; exact sites_cubic hprec h0 h1 h2 b0 b1 b2 hp2 hp hf hB
  by_cases c3 : which = "square" ∨ which = "triangle" ∨ which = "honeycomb" ∨ which = "kagome"
  · exact sites_2d hprec h0 h1 h2 b0 b1 hp2 hp hf c3 hB
  · exfalso
    rw [generator_unfold h0 h1 h2] at hB
    simp only [not_or] at c3
    have : commonCell which = none := by
      simp only [commonCell, if_neg c1, if_neg c2, if_neg c3.1, if_neg c3.2.1, if_neg c3.2.2.1, if_neg c3.2.2.2]
    rw [this] at hB
    cases hB

/-- **C108 (special clusters).** -/
theorem C108_special (hprec : 1 ≤ prec) (hp2 : 2 ≤ p) (hp : p ≤ 22) (hf : NearFloats coordOf) (which : String) (B : Built)
    (hB : specialCluster prec which = .ok B) : Distinguishes (10 ^ p) coordOf B.lat.points :=
  sites_special hprec hp2 hp hf hB

/-- Coordinates cut after thirty binary digits meet the hypothesis. -/
theorem nearFloats_example : NearFloats fun x => .flt (.fin ((⌊x * 2 ^ 30⌋ : ℤ) / 2 ^ 30)) := by
  intro x _
  refine ⟨_, rfl, ?_⟩
  have h1 := Int.floor_le (x * 2 ^ 30)
  have h2 := Int.lt_floor_add_one (x * 2 ^ 30)
  push_cast
  generalize ((⌊x * 2 ^ 30⌋ : ℤ) : ℝ) = z at *
  rw [abs_le]
  constructor
  · rw [le_sub_iff_add_le, le_div_iff₀ (by positivity)]
    norm_num at *
    linarith
  · rw [sub_le_iff_le_add, div_le_iff₀ (by positivity)]
    norm_num at *
    linarith

/-- A 2 × 3 kagome cluster at the default precision. -/
example : ∃ B, latticeGenerator 4 "kagome" 2 3 1 = .ok B ∧ B.n = 18 ∧
    Distinguishes defaultZoom (fun x => .flt (.fin ((⌊x * 2 ^ 30⌋ : ℤ) / 2 ^ 30))) B.lat.points := by
  obtain ⟨L, hL, -⟩ := good_kagome (prec := 4) (n0 := 2) (n1 := 3) (n2 := 1) (by norm_num) (by norm_num) (by norm_num)
    (by norm_num)
  exact ⟨_, hL, rfl, C108_generated (p := 4) (by norm_num) (by norm_num) (by norm_num) (by norm_num) (by norm_num)
    (by norm_num) nearFloats_example _ _ hL⟩

end Verif.LDB
