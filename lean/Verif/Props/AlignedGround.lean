import Verif.Proofs.AlignedGround
import Verif.Props.LatticeSpin
/-!
# C133: the ground states of the ferromagnet, end to end

The same runs as in C114, on the same clusters.
-/

namespace Verif.LDB

open Verif.Latt Verif.Spec Matrix Demo

variable {prec : ℕ} {n0 n1 n2 : ℤ}

/-- **C133 (generated lattices).**  Two cells or more in every direction; kagome and honeycomb of every size. -/
theorem C133_generated (hp : 1 ≤ prec) (h0 : 1 ≤ n0) (h1 : 1 ≤ n1) (h2 : 1 ≤ n2) :
    (2 ≤ n0 → EverySpinRun (m := 1) prec n0.toNat (latticeGenerator prec "chain" n0 n1 n2)
      (AlignedGround 2)) ∧
    (2 ≤ n0 → 2 ≤ n1 → EverySpinRun (m := 2) prec (n0.toNat * n1.toNat) (latticeGenerator prec "square" n0 n1 n2)
      (AlignedGround 4)) ∧
    (2 ≤ n0 → 2 ≤ n1 → EverySpinRun (m := 2) prec (n0.toNat * n1.toNat) (latticeGenerator prec "triangle" n0 n1 n2)
      (AlignedGround 6)) ∧
    (2 ≤ n0 → 2 ≤ n1 → 2 ≤ n2 → EverySpinRun (m := 3) prec (n0.toNat * n1.toNat * n2.toNat)
      (latticeGenerator prec "cubic" n0 n1 n2) (AlignedGround 6)) ∧
    EverySpinRun (m := 2) prec (n0.toNat * n1.toNat * 3) (latticeGenerator prec "kagome" n0 n1 n2)
      (AlignedGround 4) ∧
    (1 / Real.sqrt 3 ≤ roundTo prec (1 / Real.sqrt 3) →
      EverySpinRun (m := 2) prec (n0.toNat * n1.toNat * 2) (latticeGenerator prec "honeycomb" n0 n1 n2)
        (AlignedGround 3)) := by
  obtain ⟨a, b, c, d, e, f⟩ := C94_generated hp h0 h1 h2
  obtain ⟨a', b', c', f', d', e'⟩ := C66_generated hp h0 h1 h2
  have p0 : 1 ≤ n0.toNat := by omega
  have p1 : 1 ≤ n1.toNat := by omega
  have p2 : 1 ≤ n2.toNat := by omega
  have p01 : 1 ≤ n0.toNat * n1.toNat := Nat.mul_pos p0 p1
  have p012 : 1 ≤ n0.toNat * n1.toNat * n2.toNat := Nat.mul_pos p01 p2
  exact ⟨fun q0 => aligned_run one_ne_zero (by norm_num) p0 coord_chain (C53_chain hp h0 h1 h2) a a' (apart_chain q0) chain_steps,
    fun q0 q1 => aligned_run one_ne_zero (by norm_num) p01 coord_square (C53_square hp h0 h1 h2) b b' (apart_square q0 q1) square_steps,
    fun q0 q1 => aligned_run one_ne_zero (by norm_num) p01 coord_triangle (C53_triangle hp h0 h1 h2) c c'
      (apart_triangle q0 q1) triangle_steps,
    fun q0 q1 q2 => aligned_run one_ne_zero (by norm_num) p012 coord_cubic (C53_cubic hp h0 h1 h2) e e'
      (apart_cubic q0 q1 q2) cubic_steps,
    aligned_run (by norm_num) (by norm_num) (by omega) coord_kagome (C53_kagome hp h0 h1 h2) d d' (apart_half n0 n1) kagome_steps,
    fun hr => aligned_run inv_sqrt3_pos.ne' (by norm_num) (by omega) coord_honeycomb
      (C53_honeycomb hp h0 h1 h2) (f hr) f' (apart_third n0 n1) honeycomb_steps⟩

/-- The clusters of the square and triangular lattices. -/
theorem aligned_bravais (hp : 1 ≤ prec) (which : String) :
    (which ∈ ["square_cross", "square_12", "cross"] → EverySpinRun (m := 2) prec 12 (specialCluster prec which)
      (AlignedGround 4)) ∧
    (which ∈ ["square_z", "z", "square_s", "s"] → EverySpinRun (m := 2) prec 10 (specialCluster prec which)
      (AlignedGround 4)) ∧
    (which ∈ ["triangle_star", "triangle_13", "star", "SD"] → EverySpinRun (m := 2) prec 13 (specialCluster prec which)
      (AlignedGround 6)) := by
  obtain ⟨a, b, c, -⟩ := C94_special hp which
  obtain ⟨a', b', c', d', -, -, -⟩ := folds_names hp which
  refine ⟨fun h => aligned_run one_ne_zero (by norm_num) (by norm_num) (coordination_shift coord_square _)
      (C54_cross hp which h) (a h) (a' h) apart_cross (square_steps.shift _), fun h => ?_,
    fun h => aligned_run one_ne_zero (by norm_num) (by norm_num) (coordination_shift coord_triangle _)
      (C54_star hp which h) (c h) (d' h) apart_star (triangle_steps.shift _)⟩
  by_cases hz : which ∈ ["square_z", "z"]
  · exact aligned_run one_ne_zero (by norm_num) (by norm_num) (coordination_shift coord_square _)
      (C54_z hp which hz) (b h) (b' hz) apart_z (square_steps.shift _)
  · have hs : which ∈ ["square_s", "s"] := by
      simp only [List.mem_cons, List.not_mem_nil, or_false, not_or] at h hz ⊢
      tauto
    exact aligned_run one_ne_zero (by norm_num) (by norm_num) (coordination_shift coord_square _)
      (C54_s hp which hs) (b h) (c' hs) apart_s (square_steps.shift _)

/-- The clusters of the honeycomb lattice. -/
theorem aligned_honeycomb (hp : 1 ≤ prec) (which : String) (hr : 1 / Real.sqrt 3 ≤ roundTo prec (1 / Real.sqrt 3)) :
    (which ∈ ["honeycomb_benzene", "honeycomb_6", "benzene"] → EverySpinRun (m := 2) prec 6 (specialCluster prec which)
      (AlignedGround 3)) ∧
    (which ∈ ["honeycomb_diphenyl", "honeycomb_10", "diphenyl"] → EverySpinRun (m := 2) prec 10 (specialCluster prec which)
      (AlignedGround 3)) ∧
    (which ∈ ["honeycomb_gear", "honeycomb_24", "gear"] → EverySpinRun (m := 2) prec 24 (specialCluster prec which)
      (AlignedGround 3)) := by
  obtain ⟨-, -, -, d⟩ := C94_special hp which
  obtain ⟨-, -, -, -, e', f', g'⟩ := folds_names hp which
  have hd := (d hr).1
  have hd2 := (d hr).2
  have h0 : (1 : ℝ) / Real.sqrt 3 ≠ 0 := inv_sqrt3_pos.ne'
  have co := coord_honeycomb
  have hst := honeycomb_steps
  have ap1 := apart_benzene
  have ap2 := apart_diphenyl
  have ap3 := apart_gear
  generalize (1 : ℝ) / Real.sqrt 3 = dd at *
  refine ⟨fun h => ?_, fun h => ?_, fun h => ?_⟩
  · refine aligned_run h0 (by norm_num) (by norm_num) (coordination_shift co _)
      (C54_benzene hp which h) (hd ?_) (e' h) ap1 (hst.shift _)
    simp only [List.mem_cons, List.not_mem_nil, or_false] at h
    rcases h with h | h | h <;> simp [h]
  · exact aligned_run h0 (by norm_num) (by norm_num) (coordination_shift co _)
      (C54_diphenyl hp which h) (hd2 h) (f' h) ap2 (hst.shift _)
  · refine aligned_run h0 (by norm_num) (by norm_num) (coordination_shift co _)
      (C54_gear hp which h) (hd ?_) (g' h) ap3 (hst.shift _)
    simp only [List.mem_cons, List.not_mem_nil, or_false] at h
    rcases h with h | h | h <;> simp [h]

/-- **C133 (special clusters).** -/
theorem C133_special (hp : 1 ≤ prec) (which : String) :
    (which ∈ ["square_cross", "square_12", "cross"] → EverySpinRun (m := 2) prec 12 (specialCluster prec which)
      (AlignedGround 4)) ∧
    (which ∈ ["square_z", "z", "square_s", "s"] → EverySpinRun (m := 2) prec 10 (specialCluster prec which)
      (AlignedGround 4)) ∧
    (which ∈ ["triangle_star", "triangle_13", "star", "SD"] → EverySpinRun (m := 2) prec 13 (specialCluster prec which)
      (AlignedGround 6)) ∧
    (1 / Real.sqrt 3 ≤ roundTo prec (1 / Real.sqrt 3) →
      (which ∈ ["honeycomb_benzene", "honeycomb_6", "benzene"] → EverySpinRun (m := 2) prec 6 (specialCluster prec which)
        (AlignedGround 3)) ∧
      (which ∈ ["honeycomb_diphenyl", "honeycomb_10", "diphenyl"] → EverySpinRun (m := 2) prec 10 (specialCluster prec which)
        (AlignedGround 3)) ∧
      (which ∈ ["honeycomb_gear", "honeycomb_24", "gear"] → EverySpinRun (m := 2) prec 24 (specialCluster prec which)
        (AlignedGround 3))) :=
  ⟨(aligned_bravais hp which).1, (aligned_bravais hp which).2.1, (aligned_bravais hp which).2.2, aligned_honeycomb hp which⟩

/-! ### The hypotheses are met -/

/-- The 3 × 3 kagome cluster, with `J = -1`: the ground states are the vectors that do not change when two spins are
exchanged, for example that with one spin down. -/
example : ∃ (L : Lat 27 2 2) (near : _) (U : SpinSetup 27),
    latticeGenerator 4 "kagome" 3 3 1 = .ok ⟨27, 2, 2, L⟩ ∧
    spinClusterSetup near id (fun _ => id) 4 27 L (-1 : ℝ) = some (.ok U) ∧ IsLowest U.HM (-27 / 2) ∧
    U.HM *ᵥ (fun a => if downSpins a = 1 then 1 else 0) =
      ((-27 / 2 : ℝ) : ℂ) • fun a : Fin (2 ^ 27) => if downSpins a = 1 then (1 : ℂ) else 0 := by
  obtain ⟨near, hnear⟩ := exists_nearest 27 2
  obtain ⟨L, h1, h2⟩ := (C133_generated (prec := 4) (n0 := 3) (n1 := 3) (n2 := 1) (by norm_num) (by norm_num)
    (by norm_num) (by norm_num)).2.2.2.2.1
  obtain ⟨U, hU, hq⟩ := h2 near hnear id (fun l => List.Perm.refl l) (fun _ => id) (fun _ l => List.Perm.refl l) [] (-1)
  obtain ⟨hl, hw⟩ := hq (by norm_num)
  have e : ((-1 : ℝ) * (4 : ℕ) * (((3 : ℤ).toNat * (3 : ℤ).toNat * 3 : ℕ) : ℝ) / 8) = -27 / 2 := by
    rw [show (3 : ℤ).toNat * (3 : ℤ).toNat * 3 = 27 from rfl]; norm_num
  rw [e] at hl hw
  exact ⟨L, near, U, h1, hU, hl, (hw _).2.2 fun a c hac => by rw [hac]⟩

end Verif.LDB
