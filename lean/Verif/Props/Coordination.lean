import Verif.Spec.Coordination
import Verif.Proofs.Coordination
import Verif.Props.NearestBonds
import Verif.Props.LatticeDatabase
/-!
# C101: how many nearest-neighbour bonds the built-in lattices have
-/

namespace Verif.LDB

open Verif.Latt

variable {prec : ℕ} {n0 n1 n2 : ℤ}

/-- **C101 (coordination numbers).** How many nearest neighbours the sites of the infinite lattices have. -/
theorem C101_coordination :
    Coordination chainSites 1 2 ∧ Coordination squareSites 1 4 ∧ Coordination triangleSites 1 6 ∧
    Coordination kagomeSites (1 / 2) 4 ∧ Coordination cubicSites 1 6 ∧
    Coordination honeycombSites (1 / Real.sqrt 3) 3 :=
  ⟨coord_chain, coord_square, coord_triangle, coord_kagome, coord_cubic, coord_honeycomb⟩

/-- **C101 (generated lattices).** -/
theorem C101_generated (hp : 1 ≤ prec) (h0 : 1 ≤ n0) (h1 : 1 ≤ n1) (h2 : 1 ≤ n2) :
    BondsPerSite 1 prec 2 n0.toNat (latticeGenerator prec "chain" n0 n1 n2) ∧
    BondsPerSite 2 prec 4 (n0.toNat * n1.toNat) (latticeGenerator prec "square" n0 n1 n2) ∧
    BondsPerSite 2 prec 6 (n0.toNat * n1.toNat) (latticeGenerator prec "triangle" n0 n1 n2) ∧
    BondsPerSite 2 prec 4 (n0.toNat * n1.toNat * 3) (latticeGenerator prec "kagome" n0 n1 n2) ∧
    BondsPerSite 3 prec 6 (n0.toNat * n1.toNat * n2.toNat) (latticeGenerator prec "cubic" n0 n1 n2) ∧
    (1 / Real.sqrt 3 ≤ roundTo prec (1 / Real.sqrt 3) →
      BondsPerSite 2 prec 3 (n0.toNat * n1.toNat * 2) (latticeGenerator prec "honeycomb" n0 n1 n2)) := by
  obtain ⟨a, b, c, d, e, f⟩ := C94_generated hp h0 h1 h2
  exact ⟨bondsPerSite_of one_ne_zero coord_chain (C53_chain hp h0 h1 h2) a,
    bondsPerSite_of one_ne_zero coord_square (C53_square hp h0 h1 h2) b,
    bondsPerSite_of one_ne_zero coord_triangle (C53_triangle hp h0 h1 h2) c,
    bondsPerSite_of (by norm_num) coord_kagome (C53_kagome hp h0 h1 h2) d,
    bondsPerSite_of one_ne_zero coord_cubic (C53_cubic hp h0 h1 h2) e,
    fun hr => bondsPerSite_of inv_sqrt3_pos.ne' coord_honeycomb (C53_honeycomb hp h0 h1 h2) (f hr)⟩

/-- **C101 (special clusters).** Under each of their names. -/
theorem C101_special (hp : 1 ≤ prec) (which : String) :
    (which ∈ ["square_cross", "square_12", "cross"] → BondsPerSite 2 prec 4 12 (specialCluster prec which)) ∧
    (which ∈ ["square_z", "z", "square_s", "s"] → BondsPerSite 2 prec 4 10 (specialCluster prec which)) ∧
    (which ∈ ["triangle_star", "triangle_13", "star", "SD"] →
      BondsPerSite 2 prec 6 13 (specialCluster prec which)) ∧
    (1 / Real.sqrt 3 ≤ roundTo prec (1 / Real.sqrt 3) →
      (which ∈ ["honeycomb_benzene", "honeycomb_6", "benzene"] →
        BondsPerSite 2 prec 3 6 (specialCluster prec which)) ∧
      (which ∈ ["honeycomb_diphenyl", "honeycomb_10", "diphenyl"] →
        BondsPerSite 2 prec 3 10 (specialCluster prec which)) ∧
      (which ∈ ["honeycomb_gear", "honeycomb_24", "gear"] →
        BondsPerSite 2 prec 3 24 (specialCluster prec which))) := by
  obtain ⟨a, b, c, d⟩ := C94_special hp which
  have hpos := inv_sqrt3_pos.ne'
  refine ⟨fun h => bondsPerSite_of one_ne_zero (coordination_shift coord_square _) (C54_cross hp which h) (a h),
    fun h => ?_,
    fun h => bondsPerSite_of one_ne_zero (coordination_shift coord_triangle _) (C54_star hp which h) (c h),
    fun hr => ⟨fun h => ?_, fun h => ?_, fun h => ?_⟩⟩
  · have hb := b h
    by_cases hz : which ∈ ["square_z", "z"]
    · exact bondsPerSite_of one_ne_zero (coordination_shift coord_square _) (C54_z hp which hz) hb
    · refine bondsPerSite_of one_ne_zero (coordination_shift coord_square _) (C54_s hp which ?_) hb
      simp only [List.mem_cons, List.not_mem_nil, or_false, not_or] at h hz ⊢
      tauto
  · refine bondsPerSite_of hpos (coordination_shift coord_honeycomb _) (C54_benzene hp which h) ((d hr).1 ?_)
    simp only [List.mem_cons, List.not_mem_nil, or_false] at h ⊢
    tauto
  · exact bondsPerSite_of hpos (coordination_shift coord_honeycomb _) (C54_diphenyl hp which h) ((d hr).2 h)
  · refine bondsPerSite_of hpos (coordination_shift coord_honeycomb _) (C54_gear hp which h) ((d hr).1 ?_)
    simp only [List.mem_cons, List.not_mem_nil, or_false] at h ⊢
    tauto

/-- The 24-site honeycomb cluster at the default precision, after a call of `bonds(2)`: 36 bonds. -/
example : ∃ L0 : Lat 24 2 2, specialCluster 4 "gear" = .ok ⟨24, 2, 2, L0⟩ ∧
    ∃ L' intra inter, bonds id (fun _ => id) 4 (after id (fun _ => id) 4 L0 (.bonds 2 true true)) 1 true true =
      some (L', .ok (intra, some inter)) ∧ intra.length + inter.length = 36 := by
  obtain ⟨L0, h1, h⟩ := ((C101_special (prec := 4) (by norm_num) "gear").2.2.2 C94_precision.1).2.2 (by simp)
  obtain ⟨L', intra, inter, h2, h3, -⟩ := h id (fun l => List.Perm.refl l) (fun _ => id)
    (fun _ l => List.Perm.refl l) [.bonds 2 true true] true true
  exact ⟨L0, h1, L', intra, inter, h2, by omega⟩

/-- A ring of two sites: two bonds join the same two sites. -/
example : ∃ L0 : Lat 2 1 1, latticeGenerator 4 "chain" 2 1 1 = .ok ⟨2, 1, 1, L0⟩ ∧
    ∃ L' intra inter, bonds id (fun _ => id) 4 L0 1 true true = some (L', .ok (intra, some inter)) ∧
      intra.length + inter.length = 2 ∧ ∀ i, ends (intra ++ inter) (L0.points i) = 2 := by
  obtain ⟨L0, h1, h⟩ := (C101_generated (prec := 4) (n0 := 2) (n1 := 1) (n2 := 1) (by norm_num) (by norm_num)
    le_rfl le_rfl).1
  obtain ⟨L', intra, inter, h2, h3, h4⟩ := h id (fun l => List.Perm.refl l) (fun _ => id)
    (fun _ l => List.Perm.refl l) [] true true
  exact ⟨L0, h1, L', intra, inter, h2, by simp at h3; omega, h4 rfl⟩

end Verif.LDB
