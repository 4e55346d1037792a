import Verif.Proofs.NearestBuilt
/-!
# C94: the nearest neighbours of the built-in lattices

`bonds(1)` lists every nearest-neighbour bond of the infinite lattice exactly once, unless the nearest
distance is rounded down, in which case no bond that leaves the cluster is found.  Only the honeycomb
lattice has a distance that is not a short decimal number: `1/√3 = 0.57735...`, rounded up to `0.5774` at
the default precision, and rounded down to `0.57735` at a precision of five digits.
-/

namespace Verif.LDB

open Verif.Latt

variable {m : ℕ} {prec : ℕ} {n0 n1 n2 : ℤ}

/-- **C94 (the nearest distances).** -/
theorem C94_nearest_distance :
    IsNearestDistance chainSites 1 ∧ IsNearestDistance squareSites 1 ∧ IsNearestDistance triangleSites 1 ∧
    IsNearestDistance cubicSites 1 ∧ IsNearestDistance kagomeSites (1 / 2) ∧
    IsNearestDistance honeycombSites (1 / Real.sqrt 3) := by
  have key : ∀ {m : ℕ} {S : Set (Pt m)} {info : Info m} {d : ℝ}, CellData S info.points info.vectors d →
      LTiling S info.points info.vectors → IsNearestDistance S d := by
    intro m S info d hc hl
    refine ⟨?_, ?_⟩
    · obtain ⟨q, u, hu, u', hu', hd⟩ := hc.outer
      refine ⟨_, hl.inside u hu _, u', ?_, fun e => ?_, hd.symm⟩
      · have := hl.inside u' hu' 0
        rwa [comb_zero, add_zero] at this
      · rw [e, ndist_self] at hd
        exact hc.pos.ne hd
    · rintro x ⟨s, hs, t, ht, hst, rfl⟩
      rcases hc.gap s hs t ht hst with h1 | h1
      · exact h1.ge
      · linarith
  exact ⟨key chain_cell tiling_chain, key square_cell tiling_square, key triangle_cell tiling_triangle,
    key cubic_cell tiling_cubic, key kagome_cell tiling_kagome, key honeycomb_cell tiling_honeycomb⟩

/-- **C94 (generated lattices).** -/
theorem C94_generated (hp : 1 ≤ prec) (h0 : 1 ≤ n0) (h1 : 1 ≤ n1) (h2 : 1 ≤ n2) :
    FindsNearest prec chainSites 1 (latticeGenerator prec "chain" n0 n1 n2) ∧
    FindsNearest prec squareSites 1 (latticeGenerator prec "square" n0 n1 n2) ∧
    FindsNearest prec triangleSites 1 (latticeGenerator prec "triangle" n0 n1 n2) ∧
    FindsNearest prec kagomeSites (1 / 2) (latticeGenerator prec "kagome" n0 n1 n2) ∧
    FindsNearest prec cubicSites 1 (latticeGenerator prec "cubic" n0 n1 n2) ∧
    (1 / Real.sqrt 3 ≤ roundTo prec (1 / Real.sqrt 3) →
      FindsNearest prec honeycombSites (1 / Real.sqrt 3) (latticeGenerator prec "honeycomb" n0 n1 n2)) :=
  ⟨both_chain hp h0 h1 h2, both_square hp h0 h1 h2, both_triangle hp h0 h1 h2, both_kagome hp h0 h1 h2,
    both_cubic hp h0 h1 h2, (both_honeycomb hp h0 h1 h2).1⟩

/-- **C94 (special clusters).** Under each of their names. -/
theorem C94_special (hp : 1 ≤ prec) (which : String) :
    (which ∈ ["square_cross", "square_12", "cross"] →
      FindsNearest prec (shifted ![1 / 2, 1 / 2] squareSites) 1 (specialCluster prec which)) ∧
    (which ∈ ["square_z", "z", "square_s", "s"] →
      FindsNearest prec (shifted ![1 / 2, 0] squareSites) 1 (specialCluster prec which)) ∧
    (which ∈ ["triangle_star", "triangle_13", "star", "SD"] →
      FindsNearest prec (shifted ![0, 0] triangleSites) 1 (specialCluster prec which)) ∧
    (1 / Real.sqrt 3 ≤ roundTo prec (1 / Real.sqrt 3) →
      (which ∈ ["honeycomb_benzene", "honeycomb_6", "benzene", "honeycomb_gear", "honeycomb_24", "gear"] →
        FindsNearest prec (shifted ![1 / 2, 0] honeycombSites) (1 / Real.sqrt 3)
          (specialCluster prec which)) ∧
      (which ∈ ["honeycomb_diphenyl", "honeycomb_10", "diphenyl"] →
        FindsNearest prec (shifted ![0, 0] honeycombSites) (1 / Real.sqrt 3)
          (specialCluster prec which))) := by
  simp only [List.mem_cons, List.not_mem_nil, or_false]
  refine ⟨?_, ?_, ?_, fun hr => ⟨?_, ?_⟩⟩
  · rintro (rfl | rfl | rfl) <;> exact near_cross hp (by simp [specialInfo])
  · rintro (rfl | rfl | rfl | rfl)
    · exact near_z hp (by simp [specialInfo])
    · exact near_z hp (by simp [specialInfo])
    · exact near_s hp (by simp [specialInfo])
    · exact near_s hp (by simp [specialInfo])
  · rintro (rfl | rfl | rfl | rfl) <;> exact near_star hp (by simp [specialInfo])
  · rintro (rfl | rfl | rfl | rfl | rfl | rfl)
    · exact (near_benzene hp (by simp [specialInfo])).1 hr
    · exact (near_benzene hp (by simp [specialInfo])).1 hr
    · exact (near_benzene hp (by simp [specialInfo])).1 hr
    · exact (near_gear hp (by simp [specialInfo])).1 hr
    · exact (near_gear hp (by simp [specialInfo])).1 hr
    · exact (near_gear hp (by simp [specialInfo])).1 hr
  · rintro (rfl | rfl | rfl) <;> exact (near_diphenyl hp (by simp [specialInfo])).1 hr

/-- **C94 (rounded down).** When `1/√3` is rounded down, `bonds(1)` misses every bond that leaves a
honeycomb cluster. -/
theorem C94_rounded_down (hp : 1 ≤ prec) (h0 : 1 ≤ n0) (h1 : 1 ≤ n1) (h2 : 1 ≤ n2)
    (hr : roundTo prec (1 / Real.sqrt 3) < 1 / Real.sqrt 3) :
    MissesCrossing 2 prec (latticeGenerator prec "honeycomb" n0 n1 n2) ∧
    ∀ which ∈ ["honeycomb_benzene", "honeycomb_6", "benzene", "honeycomb_gear", "honeycomb_24", "gear",
      "honeycomb_diphenyl", "honeycomb_10", "diphenyl"], MissesCrossing 2 prec (specialCluster prec which) := by
  refine ⟨(both_honeycomb hp h0 h1 h2).2 hr, ?_⟩
  simp only [List.mem_cons, List.not_mem_nil, or_false]
  rintro which (rfl | rfl | rfl | rfl | rfl | rfl | rfl | rfl | rfl)
  · exact (near_benzene hp (by simp [specialInfo])).2 hr
  · exact (near_benzene hp (by simp [specialInfo])).2 hr
  · exact (near_benzene hp (by simp [specialInfo])).2 hr
  · exact (near_gear hp (by simp [specialInfo])).2 hr
  · exact (near_gear hp (by simp [specialInfo])).2 hr
  · exact (near_gear hp (by simp [specialInfo])).2 hr
  · exact (near_diphenyl hp (by simp [specialInfo])).2 hr
  · exact (near_diphenyl hp (by simp [specialInfo])).2 hr
  · exact (near_diphenyl hp (by simp [specialInfo])).2 hr

theorem inv_sqrt3_bounds : (57735 : ℝ) / 100000 < 1 / Real.sqrt 3 ∧ 1 / Real.sqrt 3 < 577351 / 1000000 := by
  have h1 := inv_sqrt3_sq
  have h2 := inv_sqrt3_pos
  constructor
  · by_contra hc
    push Not at hc
    nlinarith
  · by_contra hc
    push Not at hc
    nlinarith

theorem rint_of_near {x : ℝ} {z : ℤ} (h : |x - z| < 1 / 2) : rint x = z := by
  have h1 := rint_near x
  have h2 : |((rint x : ℤ) : ℝ) - z| < 1 := by
    have : ((rint x : ℤ) : ℝ) - z = ((rint x : ℝ) - x) + (x - z) := by ring
    rw [this]
    exact lt_of_le_of_lt (abs_add_le _ _) (by linarith)
  have h3 : |rint x - z| < 1 := by exact_mod_cast h2
  have := Int.abs_lt_one_iff.1 h3
  omega

/-- **C94 (which precisions).** The default precision of four digits rounds `1/√3` up, five digits round
it down. -/
theorem C94_precision : 1 / Real.sqrt 3 ≤ roundTo 4 (1 / Real.sqrt 3) ∧
    roundTo 5 (1 / Real.sqrt 3) < 1 / Real.sqrt 3 := by
  obtain ⟨h1, h2⟩ := inv_sqrt3_bounds
  constructor
  · have : rint (1 / Real.sqrt 3 * 10 ^ 4) = 5774 := rint_of_near (by
      rw [abs_lt]; push_cast; constructor <;> linarith)
    rw [roundTo, this]
    push_cast
    linarith
  · have : rint (1 / Real.sqrt 3 * 10 ^ 5) = 57735 := rint_of_near (by
      rw [abs_lt]; push_cast; constructor <;> linarith)
    rw [roundTo, this]
    push_cast
    linarith

/-- The honeycomb cell at the default precision, after a call of `bonds(2)`: the bond from the upper site
(0, 1/(2√3)) to the lower site of the next cell is listed once. -/
example : ∃ (n : ℕ) (L0 : Lat n 2 2), latticeGenerator 4 "honeycomb" 1 1 1 = .ok ⟨n, 2, 2, L0⟩ ∧
    ∃ L' intra inter, bonds id (fun _ => id) 4 (after id (fun _ => id) 4 L0 (.bonds 2 true true)) 1 true false =
      some (L', .ok (intra, some inter)) ∧
    ∃! b, b ∈ intra ++ inter ∧ SameBond L0.vectors b (![0, 1 / (2 * Real.sqrt 3)], ![1 / 2, 1 / Real.sqrt 3]) := by
  obtain ⟨n, L0, h1, h2⟩ := (C94_generated (prec := 4) (n0 := 1) (n1 := 1) (n2 := 1) (by norm_num) le_rfl
    le_rfl le_rfl).2.2.2.2.2 C94_precision.1
  obtain ⟨-, ⟨L', intra, inter, h3, h4⟩, -⟩ := h2 id (fun l => List.Perm.refl l) (fun _ => id)
    (fun _ l => List.Perm.refl l) [.bonds 2 true true] true
  have e1 : 1 / (2 * Real.sqrt 3) = r3 / 6 := by
    change 1 / (2 * r3) = r3 / 6
    rw [one_div, mul_inv, inv_r3]; ring
  have e2 := inv_sqrt3
  refine ⟨n, L0, h1, L', intra, inter, h3, h4.each _ ?_ _ ?_ ?_⟩
  · refine (honeycomb_iff _).2 ⟨0, 0, 1, Or.inr rfl, by simp, ?_⟩
    rw [e1]; simp
  · refine (honeycomb_iff _).2 ⟨0, 1, -1, Or.inl rfl, by simp, ?_⟩
    rw [e2]
    simp only [Matrix.cons_val_one, Matrix.cons_val_fin_one]
    push_cast; ring
  · rw [ndist_eq_iff inv_sqrt3_pos.le, inv_sqrt3_sq, Fin.sum_univ_two, e1, e2]
    simp only [Matrix.cons_val_zero, Matrix.cons_val_one, Matrix.cons_val_fin_one]
    have := r3_sq
    linear_combination (1 / 36 : ℝ) * this

/-- The benzene ring at five digits: the six bonds inside the ring may be found, but none that leaves it. -/
example : ∃ (n : ℕ) (L0 : Lat n 2 2), specialCluster 5 "benzene" = .ok ⟨n, 2, 2, L0⟩ ∧
    ∃ L' intra, bonds id (fun _ => id) 5 L0 1 true false = some (L', .ok (intra, some [])) := by
  obtain ⟨n, L0, h1, h2⟩ := (C94_rounded_down (prec := 5) (n0 := 1) (n1 := 1) (n2 := 1) (by norm_num) le_rfl
    le_rfl le_rfl C94_precision.2).2 "benzene" (by simp)
  exact ⟨n, L0, h1, h2 id (fun l => List.Perm.refl l) (fun _ => id) (fun _ l => List.Perm.refl l) [] true false⟩

end Verif.LDB
