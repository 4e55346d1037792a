import Verif.Proofs.SingletSteps
import Verif.Props.LatticeSpin
/-!
# C131: the ground state of the antiferromagnet, end to end

The same runs as in C114 and C120, on the clusters whose periodic lattice has two sublattices.
-/

namespace Verif.LDB

open Verif.Latt Verif.Spec Matrix Demo

variable {prec : ℕ} {n0 n1 n2 : ℤ}

/-- **C131 (generated lattices).**  For `J > 0` the ground state is unique, a singlet, with the signs of Marshall, and its
correlations alternate. -/
theorem C131_generated (hp : 1 ≤ prec) (h0 : 1 ≤ n0) (h1 : 1 ≤ n1) (h2 : 1 ≤ n2) :
    (Even n0 → EverySpinRun (m := 1) prec n0.toNat (latticeGenerator prec "chain" n0 n1 n2)
      (AntiferroGround chainSites 1)) ∧
    (Even n0 → Even n1 → EverySpinRun (m := 2) prec (n0.toNat * n1.toNat) (latticeGenerator prec "square" n0 n1 n2)
      (AntiferroGround squareSites 1)) ∧
    (Even n0 → Even n1 → Even n2 → EverySpinRun (m := 3) prec (n0.toNat * n1.toNat * n2.toNat)
      (latticeGenerator prec "cubic" n0 n1 n2) (AntiferroGround cubicSites 1)) ∧
    (1 / Real.sqrt 3 ≤ roundTo prec (1 / Real.sqrt 3) →
      EverySpinRun (m := 2) prec (n0.toNat * n1.toNat * 2) (latticeGenerator prec "honeycomb" n0 n1 n2)
        (AntiferroGround honeycombSites (1 / Real.sqrt 3))) := by
  obtain ⟨a, b, -, -, e, f⟩ := C94_generated hp h0 h1 h2
  obtain ⟨a', b', -, f', -, e'⟩ := C66_generated hp h0 h1 h2
  have p0 : 1 ≤ n0.toNat := by omega
  have p1 : 1 ≤ n1.toNat := by omega
  have p2 : 1 ≤ n2.toNat := by omega
  have p01 : 1 ≤ n0.toNat * n1.toNat := Nat.mul_pos p0 p1
  have p012 : 1 ≤ n0.toNat * n1.toNat * n2.toNat := Nat.mul_pos p01 p2
  have two : ∀ {n : ℤ}, 1 ≤ n → Even n → 2 ≤ n := fun h ⟨k, hk⟩ => by omega
  refine ⟨fun q0 => ?_, fun q0 q1 => ?_, fun q0 q1 q2 => ?_, fun hr => ?_⟩
  · exact ground_run one_pos (by norm_num) p0 coord_chain (C53_chain hp h0 h1 h2) a a' (apart_chain (two h0 q0))
      (stagger_chain q0) chain_steps
  · refine ground_run one_pos (by norm_num) p01 coord_square (C53_square hp h0 h1 h2) b b'
      (apart_square (two h0 q0) (two h1 q1)) (stagger_square fun c => ?_) square_steps
    obtain ⟨k0, rfl⟩ := q0
    obtain ⟨k1, rfl⟩ := q1
    refine ⟨c 0 * k0 + c 1 * k1, ?_⟩
    simp only [comb, Fin.sum_univ_two, Matrix.cons_val_zero, Matrix.cons_val_one, Matrix.cons_val_fin_one]
    push_cast; ring
  · exact ground_run one_pos (by norm_num) p012 coord_cubic (C53_cubic hp h0 h1 h2) e e'
      (apart_cubic (two h0 q0) (two h1 q1) (two h2 q2)) (stagger_cubic q0 q1 q2) cubic_steps
  · refine ground_run inv_sqrt3_pos (by norm_num) (by omega) coord_honeycomb (C53_honeycomb hp h0 h1 h2) (f hr) f'
      (apart_third n0 n1) (stagger_honeycomb fun c => ⟨c 0 * n0, c 1 * n1, ?_, ?_⟩) honeycomb_steps <;>
    · simp only [comb, Fin.sum_univ_two, Matrix.cons_val_zero, Matrix.cons_val_one, Matrix.cons_val_fin_one]
      push_cast; ring

/-- **C131 (special clusters).**  The clusters lie on lattices moved by half a bond or not at all. -/
theorem C131_special (hp : 1 ≤ prec) (which : String) :
    (which ∈ ["square_z", "z", "square_s", "s"] → EverySpinRun (m := 2) prec 10 (specialCluster prec which)
      (AntiferroGround (shifted ![1 / 2, 0] squareSites) 1)) ∧
    (1 / Real.sqrt 3 ≤ roundTo prec (1 / Real.sqrt 3) →
      (which ∈ ["honeycomb_benzene", "honeycomb_6", "benzene"] →
        EverySpinRun (m := 2) prec 6 (specialCluster prec which) (AntiferroGround (shifted ![1 / 2, 0] honeycombSites) (1 / Real.sqrt 3))) ∧
      (which ∈ ["honeycomb_diphenyl", "honeycomb_10", "diphenyl"] →
        EverySpinRun (m := 2) prec 10 (specialCluster prec which) (AntiferroGround (shifted ![0, 0] honeycombSites) (1 / Real.sqrt 3))) ∧
      (which ∈ ["honeycomb_gear", "honeycomb_24", "gear"] →
        EverySpinRun (m := 2) prec 24 (specialCluster prec which) (AntiferroGround (shifted ![1 / 2, 0] honeycombSites) (1 / Real.sqrt 3)))) := by
  obtain ⟨-, b, -, d⟩ := C94_special hp which
  obtain ⟨-, b', c', -, e', f', g'⟩ := folds_names hp which
  refine ⟨fun h => ?_, fun hr => ?_⟩
  · by_cases hz : which ∈ ["square_z", "z"]
    · refine ground_run one_pos (by norm_num) (by norm_num) (coordination_shift coord_square _)
        (C54_z hp which hz) (b h) (b' hz) apart_z ((stagger_square fun c => ⟨2 * c 1 - c 0, ?_⟩).shift _)
        (square_steps.shift _)
      simp only [comb, Fin.sum_univ_two, Matrix.cons_val_zero, Matrix.cons_val_one, Matrix.cons_val_fin_one]
      push_cast; ring
    · have hs : which ∈ ["square_s", "s"] := by
        simp only [List.mem_cons, List.not_mem_nil, or_false, not_or] at h hz ⊢
        tauto
      refine ground_run one_pos (by norm_num) (by norm_num) (coordination_shift coord_square _)
        (C54_s hp which hs) (b h) (c' hs) apart_s ((stagger_square fun c => ⟨2 * c 1 + c 0, ?_⟩).shift _)
        (square_steps.shift _)
      simp only [comb, Fin.sum_univ_two, Matrix.cons_val_zero, Matrix.cons_val_one, Matrix.cons_val_fin_one]
      push_cast; ring
  · have hd := (d hr).1
    have hd2 := (d hr).2
    have hq : 0 < (1 : ℝ) / Real.sqrt 3 := inv_sqrt3_pos
    have co := coord_honeycomb
    have f1 := far_benzene
    have f2 := far_diphenyl
    have f3 := far_gear
    have hst := honeycomb_steps
    have s1 : Stagger honeycombSites (1 / Real.sqrt 3) ![![(3 : ℝ) / 2, -Real.sqrt 3 / 2], ![3 / 2, Real.sqrt 3 / 2]] _ :=
      stagger_honeycomb fun c => ⟨2 * c 0 + c 1, c 1 - c 0, by
        simp only [comb, Fin.sum_univ_two, Matrix.cons_val_zero, Matrix.cons_val_one, Matrix.cons_val_fin_one]
        push_cast; ring, by
        simp only [comb, Fin.sum_univ_two, Matrix.cons_val_zero, Matrix.cons_val_one, Matrix.cons_val_fin_one]
        push_cast; ring⟩
    have s2 : Stagger honeycombSites (1 / Real.sqrt 3) ![![(5 : ℝ) / 2, -Real.sqrt 3 / 2], ![5 / 2, Real.sqrt 3 / 2]] _ :=
      stagger_honeycomb fun c => ⟨3 * c 0 + 2 * c 1, c 1 - c 0, by
        simp only [comb, Fin.sum_univ_two, Matrix.cons_val_zero, Matrix.cons_val_one, Matrix.cons_val_fin_one]
        push_cast; ring, by
        simp only [comb, Fin.sum_univ_two, Matrix.cons_val_zero, Matrix.cons_val_one, Matrix.cons_val_fin_one]
        push_cast; ring⟩
    have s3 : Stagger honeycombSites (1 / Real.sqrt 3) ![![(3 : ℝ), -Real.sqrt 3], ![3, Real.sqrt 3]] _ :=
      stagger_honeycomb fun c => ⟨4 * c 0 + 2 * c 1, 2 * c 1 - 2 * c 0, by
        simp only [comb, Fin.sum_univ_two, Matrix.cons_val_zero, Matrix.cons_val_one, Matrix.cons_val_fin_one]
        push_cast; ring, by
        simp only [comb, Fin.sum_univ_two, Matrix.cons_val_zero, Matrix.cons_val_one, Matrix.cons_val_fin_one]
        push_cast; ring⟩
    generalize (1 : ℝ) / Real.sqrt 3 = dd at *
    refine ⟨fun h => ?_, fun h => ?_, fun h => ?_⟩
    · have hd' := hd (by
        simp only [List.mem_cons, List.not_mem_nil, or_false] at h
        rcases h with h | h | h <;> simp [h])
      exact ground_run hq (by norm_num) (by norm_num) (coordination_shift co _) (C54_benzene hp which h) hd' (e' h)
        (f1.apart hq) (s1.shift _) (hst.shift _)
    · exact ground_run hq (by norm_num) (by norm_num) (coordination_shift co _) (C54_diphenyl hp which h) (hd2 h) (f' h)
        (f2.apart hq) (s2.shift _) (hst.shift _)
    · have hd' := hd (by
        simp only [List.mem_cons, List.not_mem_nil, or_false] at h
        rcases h with h | h | h <;> simp [h])
      exact ground_run hq (by norm_num) (by norm_num) (coordination_shift co _) (C54_gear hp which h) hd' (g' h)
        (f3.apart hq) (s3.shift _) (hst.shift _)

/-! ### The hypotheses are met -/

/-- The 4 × 4 square lattice, with `J = 1`: the ground state is unique and has no total spin. -/
example : ∃ (L : Lat 16 2 2) (near : _) (U : SpinSetup 16) (E : ℝ) (ψ : Fin (2 ^ 16) → ℂ),
    latticeGenerator 4 "square" 4 4 1 = .ok ⟨16, 2, 2, L⟩ ∧
    spinClusterSetup near id (fun _ => id) 4 16 L (1 : ℝ) = some (.ok U) ∧ IsLowest U.HM E ∧ ψ ≠ 0 ∧
    U.HM *ᵥ ψ = (E : ℂ) • ψ ∧ (∀ w, U.HM *ᵥ w = (E : ℂ) • w → ∃ z : ℂ, w = z • ψ) ∧ totalSpinOp 16 .z *ᵥ ψ = 0 := by
  obtain ⟨near, hnear⟩ := exists_nearest 16 2
  obtain ⟨L, h1, h2⟩ := (C131_generated (prec := 4) (n0 := 4) (n1 := 4) (n2 := 1) (by norm_num) (by norm_num)
    (by norm_num) (by norm_num)).2.1 (by decide) (by decide)
  obtain ⟨U, hU, hq⟩ := h2 near hnear id (fun l => List.Perm.refl l) (fun _ => id) (fun _ l => List.Perm.refl l) [] 1
  obtain ⟨-, E, ψ, -, hE, h0, he, hu, ht, -⟩ := hq one_pos
  exact ⟨L, near, U, E, ψ, h1, hU, hE, h0, he, hu, ht .z (by simp)⟩

end Verif.LDB
