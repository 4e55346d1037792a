import Verif.Proofs.SingletSteps
import Verif.Proofs.SpinLevels
import Verif.Props.LatticeSpin
/-!
# C132: the ordering of the levels of the antiferromagnet, end to end

The same runs as in C114, C120 and C131, on the clusters of C131.
-/

namespace Verif.LDB

open Verif.Latt Verif.Spec Matrix Demo

variable {prec : ℕ} {n0 n1 n2 : ℤ}

/-- **C132 (generated lattices).**  For `J > 0` the lowest energy for a total spin rises with the spin. -/
theorem C132_generated (hp : 1 ≤ prec) (h0 : 1 ≤ n0) (h1 : 1 ≤ n1) (h2 : 1 ≤ n2) :
    (Even n0 → EverySpinRun (m := 1) prec n0.toNat (latticeGenerator prec "chain" n0 n1 n2)
      OrderedLevels) ∧
    (Even n0 → Even n1 → EverySpinRun (m := 2) prec (n0.toNat * n1.toNat) (latticeGenerator prec "square" n0 n1 n2)
      OrderedLevels) ∧
    (Even n0 → Even n1 → Even n2 → EverySpinRun (m := 3) prec (n0.toNat * n1.toNat * n2.toNat)
      (latticeGenerator prec "cubic" n0 n1 n2) OrderedLevels) ∧
    (1 / Real.sqrt 3 ≤ roundTo prec (1 / Real.sqrt 3) →
      EverySpinRun (m := 2) prec (n0.toNat * n1.toNat * 2) (latticeGenerator prec "honeycomb" n0 n1 n2)
        OrderedLevels) := by
  obtain ⟨a, b, -, -, e, f⟩ := C94_generated hp h0 h1 h2
  obtain ⟨a', b', -, f', -, e'⟩ := C66_generated hp h0 h1 h2
  have p0 : 1 ≤ n0.toNat := by omega
  have p1 : 1 ≤ n1.toNat := by omega
  have p2 : 1 ≤ n2.toNat := by omega
  have p01 : 1 ≤ n0.toNat * n1.toNat := Nat.mul_pos p0 p1
  have p012 : 1 ≤ n0.toNat * n1.toNat * n2.toNat := Nat.mul_pos p01 p2
  have two : ∀ {n : ℤ}, 1 ≤ n → Even n → 2 ≤ n := fun h ⟨k, hk⟩ => by omega
  refine ⟨fun q0 => ?_, fun q0 q1 => ?_, fun q0 q1 q2 => ?_, fun hr => ?_⟩
  · exact levels_run one_pos (by norm_num) p0 coord_chain (C53_chain hp h0 h1 h2) a a' (apart_chain (two h0 q0))
      (stagger_chain q0) chain_steps
  · refine levels_run one_pos (by norm_num) p01 coord_square (C53_square hp h0 h1 h2) b b'
      (apart_square (two h0 q0) (two h1 q1)) (stagger_square fun c => ?_) square_steps
    obtain ⟨k0, rfl⟩ := q0
    obtain ⟨k1, rfl⟩ := q1
    refine ⟨c 0 * k0 + c 1 * k1, ?_⟩
    simp only [comb, Fin.sum_univ_two, Matrix.cons_val_zero, Matrix.cons_val_one, Matrix.cons_val_fin_one]
    push_cast; ring
  · exact levels_run one_pos (by norm_num) p012 coord_cubic (C53_cubic hp h0 h1 h2) e e'
      (apart_cubic (two h0 q0) (two h1 q1) (two h2 q2)) (stagger_cubic q0 q1 q2) cubic_steps
  · refine levels_run inv_sqrt3_pos (by norm_num) (by omega) coord_honeycomb (C53_honeycomb hp h0 h1 h2) (f hr) f'
      (apart_third n0 n1) (stagger_honeycomb fun c => ⟨c 0 * n0, c 1 * n1, ?_, ?_⟩) honeycomb_steps <;>
    · simp only [comb, Fin.sum_univ_two, Matrix.cons_val_zero, Matrix.cons_val_one, Matrix.cons_val_fin_one]
      push_cast; ring

/-- **C132 (special clusters).** -/
theorem C132_special (hp : 1 ≤ prec) (which : String) :
    (which ∈ ["square_z", "z", "square_s", "s"] → EverySpinRun (m := 2) prec 10 (specialCluster prec which)
      OrderedLevels) ∧
    (1 / Real.sqrt 3 ≤ roundTo prec (1 / Real.sqrt 3) →
      (which ∈ ["honeycomb_benzene", "honeycomb_6", "benzene"] →
        EverySpinRun (m := 2) prec 6 (specialCluster prec which) OrderedLevels) ∧
      (which ∈ ["honeycomb_diphenyl", "honeycomb_10", "diphenyl"] →
        EverySpinRun (m := 2) prec 10 (specialCluster prec which) OrderedLevels) ∧
      (which ∈ ["honeycomb_gear", "honeycomb_24", "gear"] →
        EverySpinRun (m := 2) prec 24 (specialCluster prec which) OrderedLevels)) := by
  obtain ⟨-, b, -, d⟩ := C94_special hp which
  obtain ⟨-, b', c', -, e', f', g'⟩ := folds_names hp which
  refine ⟨fun h => ?_, fun hr => ?_⟩
  · by_cases hz : which ∈ ["square_z", "z"]
    · refine levels_run one_pos (by norm_num) (by norm_num) (coordination_shift coord_square _)
        (C54_z hp which hz) (b h) (b' hz) apart_z ((stagger_square fun c => ⟨2 * c 1 - c 0, ?_⟩).shift _)
        (square_steps.shift _)
      simp only [comb, Fin.sum_univ_two, Matrix.cons_val_zero, Matrix.cons_val_one, Matrix.cons_val_fin_one]
      push_cast; ring
    · have hs : which ∈ ["square_s", "s"] := by
        simp only [List.mem_cons, List.not_mem_nil, or_false, not_or] at h hz ⊢
        tauto
      refine levels_run one_pos (by norm_num) (by norm_num) (coordination_shift coord_square _)
        (C54_s hp which hs) (b h) (c' hs) apart_s ((stagger_square fun c => ⟨2 * c 1 + c 0, ?_⟩).shift _)
        (square_steps.shift _)
      simp only [comb, Fin.sum_univ_two, Matrix.cons_val_zero, Matrix.cons_val_one, Matrix.cons_val_fin_one]
      push_cast; ring
  · have hd := (d hr).1
    have hd2 := (d hr).2
    have hq : 0 < (1 : ℝ) / Real.sqrt 3 := inv_sqrt3_pos
    have co := coord_honeycomb
    have f1 := far_benzene
    have f2 := far_diphenyl
    have f3 := far_gear
    have hst := honeycomb_steps
    have s1 : Stagger honeycombSites (1 / Real.sqrt 3) ![![(3 : ℝ) / 2, -Real.sqrt 3 / 2], ![3 / 2, Real.sqrt 3 / 2]] _ :=
      stagger_honeycomb fun c => ⟨2 * c 0 + c 1, c 1 - c 0, by
        simp only [comb, Fin.sum_univ_two, Matrix.cons_val_zero, Matrix.cons_val_one, Matrix.cons_val_fin_one]
        push_cast; ring, by
        simp only [comb, Fin.sum_univ_two, Matrix.cons_val_zero, Matrix.cons_val_one, Matrix.cons_val_fin_one]
        push_cast; ring⟩
    have s2 : Stagger honeycombSites (1 / Real.sqrt 3) ![![(5 : ℝ) / 2, -Real.sqrt 3 / 2], ![5 / 2, Real.sqrt 3 / 2]] _ :=
      stagger_honeycomb fun c => ⟨3 * c 0 + 2 * c 1, c 1 - c 0, by
        simp only [comb, Fin.sum_univ_two, Matrix.cons_val_zero, Matrix.cons_val_one, Matrix.cons_val_fin_one]
        push_cast; ring, by
        simp only [comb, Fin.sum_univ_two, Matrix.cons_val_zero, Matrix.cons_val_one, Matrix.cons_val_fin_one]
        push_cast; ring⟩
    have s3 : Stagger honeycombSites (1 / Real.sqrt 3) ![![(3 : ℝ), -Real.sqrt 3], ![3, Real.sqrt 3]] _ :=
      stagger_honeycomb fun c => ⟨4 * c 0 + 2 * c 1, 2 * c 1 - 2 * c 0, by
        simp only [comb, Fin.sum_univ_two, Matrix.cons_val_zero, Matrix.cons_val_one, Matrix.cons_val_fin_one]
        push_cast; ring, by
        simp only [comb, Fin.sum_univ_two, Matrix.cons_val_zero, Matrix.cons_val_one, Matrix.cons_val_fin_one]
        push_cast; ring⟩
    generalize (1 : ℝ) / Real.sqrt 3 = dd at *
    refine ⟨fun h => ?_, fun h => ?_, fun h => ?_⟩
    · have hd' := hd (by
        simp only [List.mem_cons, List.not_mem_nil, or_false] at h
        rcases h with h | h | h <;> simp [h])
      exact levels_run hq (by norm_num) (by norm_num) (coordination_shift co _) (C54_benzene hp which h) hd' (e' h)
        (f1.apart hq) (s1.shift _) (hst.shift _)
    · exact levels_run hq (by norm_num) (by norm_num) (coordination_shift co _) (C54_diphenyl hp which h) (hd2 h) (f' h)
        (f2.apart hq) (s2.shift _) (hst.shift _)
    · have hd' := hd (by
        simp only [List.mem_cons, List.not_mem_nil, or_false] at h
        rcases h with h | h | h <;> simp [h])
      exact levels_run hq (by norm_num) (by norm_num) (coordination_shift co _) (C54_gear hp which h) hd' (g' h)
        (f3.apart hq) (s3.shift _) (hst.shift _)

/-! ### The hypotheses are met -/

/-- The 4 × 4 square lattice, with `J = 1`: there is a gap between the ground state and the states with `S^z = 1`, or of
total spin 1. -/
example : ∃ (L : Lat 16 2 2) (near : _) (U : SpinSetup 16) (E E' : ℝ),
    latticeGenerator 4 "square" 4 4 1 = .ok ⟨16, 2, 2, L⟩ ∧
    spinClusterSetup near id (fun _ => id) 4 16 L (1 : ℝ) = some (.ok U) ∧ IsLowest U.HM E ∧ E < E' ∧
    ∀ (z : ℂ) (w : Fin (2 ^ 16) → ℂ), w ≠ 0 → totalSpinOp 16 .z *ᵥ w = w ∨ totalSpinSquare 16 *ᵥ w = (2 : ℂ) • w →
      U.HM *ᵥ w = z • w → E' ≤ z.re := by
  obtain ⟨near, hnear⟩ := exists_nearest 16 2
  obtain ⟨L, h1, h2⟩ := (C132_generated (prec := 4) (n0 := 4) (n1 := 4) (n2 := 1) (by norm_num) (by norm_num)
    (by norm_num) (by norm_num)).2.1 (by decide) (by decide)
  obtain ⟨U, hU, hq⟩ := h2 near hnear id (fun l => List.Perm.refl l) (fun _ => id) (fun _ l => List.Perm.refl l) [] 1
  obtain ⟨E, ψ, hl, ht, hlt, hlow⟩ := hq one_pos
  refine ⟨L, near, U, E 8, E 7, h1, hU, hlow 8 rfl, hlt 7 8 (by norm_num) le_rfl, fun z w h0 hw hz => ?_⟩
  have e : ((((4 : ℤ).toNat * (4 : ℤ).toNat : ℕ) : ℂ) / 2 - ((7 : ℕ) : ℂ)) = 1 := by
    rw [show (4 : ℤ).toNat * (4 : ℤ).toNat = 16 from rfl]; norm_num
  rcases hw with hw | hw
  · refine ((hl 7 (by decide)).2.2.2.2 z w h0 ?_ hz).2.1
    refine Eq.trans hw ?_
    rw [e, one_smul]
  · refine (ht 7 (by decide) z w h0 ?_ hz).2
    refine Eq.trans hw ?_
    rw [e]
    norm_num

end Verif.LDB
