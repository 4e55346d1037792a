import Verif.Proofs.Antiferromagnet
import Verif.Props.LatticeSpin
/-!
# C120: bounds on the energies of the antiferromagnet, end to end

The same runs as in C114: a cluster is built, `bonds(1)` is called, every bond becomes three exchange terms, their
matrices are added with their conjugates.
-/

namespace Verif.LDB

open Verif.Latt Verif.Spec Matrix Demo

variable {prec : ℕ} {n0 n1 n2 : ℤ}

/-- **C120 (Anderson's bound).**  If no two neighbours of a site are copies of each other, the lowest energy per site is not
below `-J (z + 2) / 8`, with `z` the number of neighbours. -/
theorem C120_lower (hp : 1 ≤ prec) (h0 : 1 ≤ n0) (h1 : 1 ≤ n1) (h2 : 1 ≤ n2) :
    (3 ≤ n0 → EverySpinRun (m := 1) prec n0.toNat (latticeGenerator prec "chain" n0 n1 n2) (LowestAtLeast 4)) ∧
    (3 ≤ n0 → 3 ≤ n1 → EverySpinRun (m := 2) prec (n0.toNat * n1.toNat) (latticeGenerator prec "square" n0 n1 n2)
      (LowestAtLeast 6)) ∧
    (3 ≤ n0 → 3 ≤ n1 → EverySpinRun (m := 2) prec (n0.toNat * n1.toNat) (latticeGenerator prec "triangle" n0 n1 n2)
      (LowestAtLeast 8)) ∧
    (3 ≤ n0 → 3 ≤ n1 → 3 ≤ n2 → EverySpinRun (m := 3) prec (n0.toNat * n1.toNat * n2.toNat)
      (latticeGenerator prec "cubic" n0 n1 n2) (LowestAtLeast 8)) ∧
    (2 ≤ n0 → 2 ≤ n1 → EverySpinRun (m := 2) prec (n0.toNat * n1.toNat * 3) (latticeGenerator prec "kagome" n0 n1 n2)
      (LowestAtLeast 6)) ∧
    (2 ≤ n0 → 2 ≤ n1 → 1 / Real.sqrt 3 ≤ roundTo prec (1 / Real.sqrt 3) →
      EverySpinRun (m := 2) prec (n0.toNat * n1.toNat * 2) (latticeGenerator prec "honeycomb" n0 n1 n2)
        (LowestAtLeast 5)) := by
  obtain ⟨a, b, c, d, e, f⟩ := C94_generated hp h0 h1 h2
  obtain ⟨a', b', c', f', d', e'⟩ := C66_generated hp h0 h1 h2
  have p0 : 1 ≤ n0.toNat := by omega
  have p1 : 1 ≤ n1.toNat := by omega
  have p2 : 1 ≤ n2.toNat := by omega
  have p01 : 1 ≤ n0.toNat * n1.toNat := Nat.mul_pos p0 p1
  have p012 : 1 ≤ n0.toNat * n1.toNat * n2.toNat := Nat.mul_pos p01 p2
  refine ⟨fun q0 => ?_, fun q0 q1 => ?_, fun q0 q1 => ?_, fun q0 q1 q2 => ?_, fun q0 q1 => ?_, fun q0 q1 hr => ?_⟩
  · have := anderson_run one_pos (by norm_num) p0 coord_chain (C53_chain hp h0 h1 h2) a a' (far_chain q0)
    norm_num at this; exact this
  · have := anderson_run one_pos (by norm_num) p01 coord_square (C53_square hp h0 h1 h2) b b' (far_square q0 q1)
    norm_num at this; exact this
  · have := anderson_run one_pos (by norm_num) p01 coord_triangle (C53_triangle hp h0 h1 h2) c c' (far_triangle q0 q1)
    norm_num at this; exact this
  · have := anderson_run one_pos (by norm_num) p012 coord_cubic (C53_cubic hp h0 h1 h2) e e' (far_cubic q0 q1 q2)
    norm_num at this; exact this
  · have := anderson_run (by norm_num) (by norm_num) (by omega) coord_kagome (C53_kagome hp h0 h1 h2) d d'
      (far_small q0 q1 (by norm_num))
    norm_num at this; exact this
  · have h := far_small q0 q1 (by exact_mod_cast inv_sqrt3_far)
    have := anderson_run inv_sqrt3_pos (by norm_num) (by omega) coord_honeycomb (C53_honeycomb hp h0 h1 h2) (f hr) f' h
    norm_num at this; exact this

/-- **C120 (every bond).**  On all clusters of C114: not below `-3 J z / 8` per site, all bonds singlets; and the highest
energy is that of all spins up. -/
theorem C120_weak (hp : 1 ≤ prec) (h0 : 1 ≤ n0) (h1 : 1 ≤ n1) (h2 : 1 ≤ n2) :
    (2 ≤ n0 → EverySpinRun (m := 1) prec n0.toNat (latticeGenerator prec "chain" n0 n1 n2)
      fun L J H => LowestAtLeast 6 L J H ∧ HighestUp 2 L J H) ∧
    (2 ≤ n0 → 2 ≤ n1 → EverySpinRun (m := 2) prec (n0.toNat * n1.toNat) (latticeGenerator prec "square" n0 n1 n2)
      fun L J H => LowestAtLeast 12 L J H ∧ HighestUp 4 L J H) ∧
    (2 ≤ n0 → 2 ≤ n1 → EverySpinRun (m := 2) prec (n0.toNat * n1.toNat) (latticeGenerator prec "triangle" n0 n1 n2)
      fun L J H => LowestAtLeast 18 L J H ∧ HighestUp 6 L J H) ∧
    (2 ≤ n0 → 2 ≤ n1 → 2 ≤ n2 → EverySpinRun (m := 3) prec (n0.toNat * n1.toNat * n2.toNat)
      (latticeGenerator prec "cubic" n0 n1 n2) fun L J H => LowestAtLeast 18 L J H ∧ HighestUp 6 L J H) ∧
    EverySpinRun (m := 2) prec (n0.toNat * n1.toNat * 3) (latticeGenerator prec "kagome" n0 n1 n2)
      (fun L J H => LowestAtLeast 12 L J H ∧ HighestUp 4 L J H) ∧
    (1 / Real.sqrt 3 ≤ roundTo prec (1 / Real.sqrt 3) →
      EverySpinRun (m := 2) prec (n0.toNat * n1.toNat * 2) (latticeGenerator prec "honeycomb" n0 n1 n2)
        fun L J H => LowestAtLeast 9 L J H ∧ HighestUp 3 L J H) := by
  obtain ⟨a, b, c, d, e, f⟩ := C94_generated hp h0 h1 h2
  obtain ⟨a', b', c', f', d', e'⟩ := C66_generated hp h0 h1 h2
  have p0 : 1 ≤ n0.toNat := by omega
  have p1 : 1 ≤ n1.toNat := by omega
  have p2 : 1 ≤ n2.toNat := by omega
  have p01 : 1 ≤ n0.toNat * n1.toNat := Nat.mul_pos p0 p1
  have p012 : 1 ≤ n0.toNat * n1.toNat * n2.toNat := Nat.mul_pos p01 p2
  refine ⟨fun q0 => ?_, fun q0 q1 => ?_, fun q0 q1 => ?_, fun q0 q1 q2 => ?_, ?_, fun hr => ?_⟩
  · have := weak_run one_pos (by norm_num) p0 coord_chain (C53_chain hp h0 h1 h2) a a' (apart_chain q0)
    norm_num at this; exact this
  · have := weak_run one_pos (by norm_num) p01 coord_square (C53_square hp h0 h1 h2) b b' (apart_square q0 q1)
    norm_num at this; exact this
  · have := weak_run one_pos (by norm_num) p01 coord_triangle (C53_triangle hp h0 h1 h2) c c' (apart_triangle q0 q1)
    norm_num at this; exact this
  · have := weak_run one_pos (by norm_num) p012 coord_cubic (C53_cubic hp h0 h1 h2) e e' (apart_cubic q0 q1 q2)
    norm_num at this; exact this
  · have := weak_run (by norm_num) (by norm_num) (by omega) coord_kagome (C53_kagome hp h0 h1 h2) d d' (apart_half n0 n1)
    norm_num at this; exact this
  · have := weak_run inv_sqrt3_pos (by norm_num) (by omega) coord_honeycomb (C53_honeycomb hp h0 h1 h2) (f hr) f'
      (apart_third n0 n1)
    norm_num at this; exact this

/-- **C120 (Néel's bound).**  If the periodic lattice has two sublattices, the lowest energy per site is not above
`-J z / 8`. -/
theorem C120_neel (hp : 1 ≤ prec) (h0 : 1 ≤ n0) (h1 : 1 ≤ n1) (h2 : 1 ≤ n2) :
    (Even n0 → EverySpinRun (m := 1) prec n0.toNat (latticeGenerator prec "chain" n0 n1 n2) (LowestAtMost 2)) ∧
    (Even n0 → Even n1 → EverySpinRun (m := 2) prec (n0.toNat * n1.toNat) (latticeGenerator prec "square" n0 n1 n2)
      (LowestAtMost 4)) ∧
    (Even n0 → Even n1 → Even n2 → EverySpinRun (m := 3) prec (n0.toNat * n1.toNat * n2.toNat)
      (latticeGenerator prec "cubic" n0 n1 n2) (LowestAtMost 6)) ∧
    (1 / Real.sqrt 3 ≤ roundTo prec (1 / Real.sqrt 3) →
      EverySpinRun (m := 2) prec (n0.toNat * n1.toNat * 2) (latticeGenerator prec "honeycomb" n0 n1 n2)
        (LowestAtMost 3)) := by
  obtain ⟨a, b, -, -, e, f⟩ := C94_generated hp h0 h1 h2
  obtain ⟨a', b', -, f', -, e'⟩ := C66_generated hp h0 h1 h2
  have p0 : 1 ≤ n0.toNat := by omega
  have p1 : 1 ≤ n1.toNat := by omega
  have p2 : 1 ≤ n2.toNat := by omega
  have p01 : 1 ≤ n0.toNat * n1.toNat := Nat.mul_pos p0 p1
  have p012 : 1 ≤ n0.toNat * n1.toNat * n2.toNat := Nat.mul_pos p01 p2
  have two : ∀ {n : ℤ}, 1 ≤ n → Even n → 2 ≤ n := fun h ⟨k, hk⟩ => by omega
  refine ⟨fun q0 => ?_, fun q0 q1 => ?_, fun q0 q1 q2 => ?_, fun hr => ?_⟩
  · exact_mod_cast neel_run one_pos (by norm_num) p0 coord_chain (C53_chain hp h0 h1 h2) a a' (apart_chain (two h0 q0))
      (stagger_chain q0)
  · refine mod_cast neel_run one_pos (by norm_num) p01 coord_square (C53_square hp h0 h1 h2) b b'
      (apart_square (two h0 q0) (two h1 q1)) (stagger_square fun c => ?_)
    obtain ⟨k0, rfl⟩ := q0
    obtain ⟨k1, rfl⟩ := q1
    refine ⟨c 0 * k0 + c 1 * k1, ?_⟩
    simp only [comb, Fin.sum_univ_two, Matrix.cons_val_zero, Matrix.cons_val_one, Matrix.cons_val_fin_one]
    push_cast; ring
  · exact_mod_cast neel_run one_pos (by norm_num) p012 coord_cubic (C53_cubic hp h0 h1 h2) e e'
      (apart_cubic (two h0 q0) (two h1 q1) (two h2 q2)) (stagger_cubic q0 q1 q2)
  · refine mod_cast neel_run inv_sqrt3_pos (by norm_num) (by omega) coord_honeycomb (C53_honeycomb hp h0 h1 h2) (f hr) f'
      (apart_third n0 n1) (stagger_honeycomb fun c => ⟨c 0 * n0, c 1 * n1, ?_, ?_⟩) <;>
    · simp only [comb, Fin.sum_univ_two, Matrix.cons_val_zero, Matrix.cons_val_one, Matrix.cons_val_fin_one]
      push_cast; ring

/-- The clusters of the square and triangular lattices. -/
theorem bounds_bravais (hp : 1 ≤ prec) (which : String) :
    (which ∈ ["square_cross", "square_12", "cross"] → EverySpinRun (m := 2) prec 12 (specialCluster prec which)
      (LowestAtLeast 6)) ∧
    (which ∈ ["square_z", "z", "square_s", "s"] → EverySpinRun (m := 2) prec 10 (specialCluster prec which)
      (LowestAtLeast 6) ∧ EverySpinRun (m := 2) prec 10 (specialCluster prec which) (LowestAtMost 4)) ∧
    (which ∈ ["triangle_star", "triangle_13", "star", "SD"] → EverySpinRun (m := 2) prec 13 (specialCluster prec which)
      (LowestAtLeast 8)) := by
  obtain ⟨a, b, c, -⟩ := C94_special hp which
  obtain ⟨a', b', c', d', -, -, -⟩ := folds_names hp which
  refine ⟨fun h => ?_, fun h => ?_, fun h => ?_⟩
  · have := anderson_run one_pos (by norm_num) (by norm_num) (coordination_shift coord_square _)
      (C54_cross hp which h) (a h) (a' h) far_cross
    norm_num at this; exact this
  · by_cases hz : which ∈ ["square_z", "z"]
    · refine ⟨?_, ?_⟩
      · have := anderson_run one_pos (by norm_num) (by norm_num) (coordination_shift coord_square _)
          (C54_z hp which hz) (b h) (b' hz) far_z
        norm_num at this; exact this
      · refine mod_cast neel_run one_pos (by norm_num) (by norm_num) (coordination_shift coord_square _)
          (C54_z hp which hz) (b h) (b' hz) apart_z ((stagger_square fun c => ⟨2 * c 1 - c 0, ?_⟩).shift _)
        simp only [comb, Fin.sum_univ_two, Matrix.cons_val_zero, Matrix.cons_val_one, Matrix.cons_val_fin_one]
        push_cast; ring
    · have hs : which ∈ ["square_s", "s"] := by
        simp only [List.mem_cons, List.not_mem_nil, or_false, not_or] at h hz ⊢
        tauto
      refine ⟨?_, ?_⟩
      · have := anderson_run one_pos (by norm_num) (by norm_num) (coordination_shift coord_square _)
          (C54_s hp which hs) (b h) (c' hs) far_s
        norm_num at this; exact this
      · refine mod_cast neel_run one_pos (by norm_num) (by norm_num) (coordination_shift coord_square _)
          (C54_s hp which hs) (b h) (c' hs) apart_s ((stagger_square fun c => ⟨2 * c 1 + c 0, ?_⟩).shift _)
        simp only [comb, Fin.sum_univ_two, Matrix.cons_val_zero, Matrix.cons_val_one, Matrix.cons_val_fin_one]
        push_cast; ring
  · have := anderson_run one_pos (by norm_num) (by norm_num) (coordination_shift coord_triangle _)
      (C54_star hp which h) (c h) (d' h) far_star
    norm_num at this; exact this

/-- The clusters of the honeycomb lattice. -/
theorem bounds_honeycomb (hp : 1 ≤ prec) (which : String) (hr : 1 / Real.sqrt 3 ≤ roundTo prec (1 / Real.sqrt 3)) :
    (which ∈ ["honeycomb_benzene", "honeycomb_6", "benzene"] →
      EverySpinRun (m := 2) prec 6 (specialCluster prec which) (LowestAtLeast 5) ∧
      EverySpinRun (m := 2) prec 6 (specialCluster prec which) (LowestAtMost 3)) ∧
    (which ∈ ["honeycomb_diphenyl", "honeycomb_10", "diphenyl"] →
      EverySpinRun (m := 2) prec 10 (specialCluster prec which) (LowestAtLeast 5) ∧
      EverySpinRun (m := 2) prec 10 (specialCluster prec which) (LowestAtMost 3)) ∧
    (which ∈ ["honeycomb_gear", "honeycomb_24", "gear"] →
      EverySpinRun (m := 2) prec 24 (specialCluster prec which) (LowestAtLeast 5) ∧
      EverySpinRun (m := 2) prec 24 (specialCluster prec which) (LowestAtMost 3)) := by
  obtain ⟨-, -, -, d⟩ := C94_special hp which
  obtain ⟨-, -, -, -, e', f', g'⟩ := folds_names hp which
  have hd := (d hr).1
  have hd2 := (d hr).2
  have h0 : 0 < (1 : ℝ) / Real.sqrt 3 := inv_sqrt3_pos
  have co := coord_honeycomb
  have f1 := far_benzene
  have f2 := far_diphenyl
  have f3 := far_gear
  have s1 : Stagger honeycombSites (1 / Real.sqrt 3) ![![(3 : ℝ) / 2, -Real.sqrt 3 / 2], ![3 / 2, Real.sqrt 3 / 2]] _ :=
    stagger_honeycomb fun c => ⟨2 * c 0 + c 1, c 1 - c 0, by
      simp only [comb, Fin.sum_univ_two, Matrix.cons_val_zero, Matrix.cons_val_one, Matrix.cons_val_fin_one]
      push_cast; ring, by
      simp only [comb, Fin.sum_univ_two, Matrix.cons_val_zero, Matrix.cons_val_one, Matrix.cons_val_fin_one]
      push_cast; ring⟩
  have s2 : Stagger honeycombSites (1 / Real.sqrt 3) ![![(5 : ℝ) / 2, -Real.sqrt 3 / 2], ![5 / 2, Real.sqrt 3 / 2]] _ :=
    stagger_honeycomb fun c => ⟨3 * c 0 + 2 * c 1, c 1 - c 0, by
      simp only [comb, Fin.sum_univ_two, Matrix.cons_val_zero, Matrix.cons_val_one, Matrix.cons_val_fin_one]
      push_cast; ring, by
      simp only [comb, Fin.sum_univ_two, Matrix.cons_val_zero, Matrix.cons_val_one, Matrix.cons_val_fin_one]
      push_cast; ring⟩
  have s3 : Stagger honeycombSites (1 / Real.sqrt 3) ![![(3 : ℝ), -Real.sqrt 3], ![3, Real.sqrt 3]] _ :=
    stagger_honeycomb fun c => ⟨4 * c 0 + 2 * c 1, 2 * c 1 - 2 * c 0, by
      simp only [comb, Fin.sum_univ_two, Matrix.cons_val_zero, Matrix.cons_val_one, Matrix.cons_val_fin_one]
      push_cast; ring, by
      simp only [comb, Fin.sum_univ_two, Matrix.cons_val_zero, Matrix.cons_val_one, Matrix.cons_val_fin_one]
      push_cast; ring⟩
  generalize (1 : ℝ) / Real.sqrt 3 = dd at *
  have e5 : (((3 : ℕ) : ℝ) + 2) = 5 := by norm_num
  have e3 : ((3 : ℕ) : ℝ) = 3 := by norm_num
  rw [← e5, ← e3]
  refine ⟨fun h => ?_, fun h => ?_, fun h => ?_⟩
  · have hd' := hd (by
      simp only [List.mem_cons, List.not_mem_nil, or_false] at h
      rcases h with h | h | h <;> simp [h])
    exact ⟨anderson_run h0 (by norm_num) (by norm_num) (coordination_shift co _) (C54_benzene hp which h) hd' (e' h) f1,
      neel_run h0 (by norm_num) (by norm_num) (coordination_shift co _) (C54_benzene hp which h) hd' (e' h) (f1.apart h0)
        (s1.shift _)⟩
  · exact ⟨anderson_run h0 (by norm_num) (by norm_num) (coordination_shift co _) (C54_diphenyl hp which h) (hd2 h) (f' h) f2,
      neel_run h0 (by norm_num) (by norm_num) (coordination_shift co _) (C54_diphenyl hp which h) (hd2 h) (f' h)
        (f2.apart h0) (s2.shift _)⟩
  · have hd' := hd (by
      simp only [List.mem_cons, List.not_mem_nil, or_false] at h
      rcases h with h | h | h <;> simp [h])
    exact ⟨anderson_run h0 (by norm_num) (by norm_num) (coordination_shift co _) (C54_gear hp which h) hd' (g' h) f3,
      neel_run h0 (by norm_num) (by norm_num) (coordination_shift co _) (C54_gear hp which h) hd' (g' h) (f3.apart h0)
        (s3.shift _)⟩

/-- **C120 (special clusters).**  (The superlattice of the cross has no two sublattices.) -/
theorem C120_special (hp : 1 ≤ prec) (which : String) :
    (which ∈ ["square_cross", "square_12", "cross"] → EverySpinRun (m := 2) prec 12 (specialCluster prec which)
      (LowestAtLeast 6)) ∧
    (which ∈ ["square_z", "z", "square_s", "s"] → EverySpinRun (m := 2) prec 10 (specialCluster prec which)
      (LowestAtLeast 6) ∧ EverySpinRun (m := 2) prec 10 (specialCluster prec which) (LowestAtMost 4)) ∧
    (which ∈ ["triangle_star", "triangle_13", "star", "SD"] → EverySpinRun (m := 2) prec 13 (specialCluster prec which)
      (LowestAtLeast 8)) ∧
    (1 / Real.sqrt 3 ≤ roundTo prec (1 / Real.sqrt 3) →
      (which ∈ ["honeycomb_benzene", "honeycomb_6", "benzene"] →
        EverySpinRun (m := 2) prec 6 (specialCluster prec which) (LowestAtLeast 5) ∧
        EverySpinRun (m := 2) prec 6 (specialCluster prec which) (LowestAtMost 3)) ∧
      (which ∈ ["honeycomb_diphenyl", "honeycomb_10", "diphenyl"] →
        EverySpinRun (m := 2) prec 10 (specialCluster prec which) (LowestAtLeast 5) ∧
        EverySpinRun (m := 2) prec 10 (specialCluster prec which) (LowestAtMost 3)) ∧
      (which ∈ ["honeycomb_gear", "honeycomb_24", "gear"] →
        EverySpinRun (m := 2) prec 24 (specialCluster prec which) (LowestAtLeast 5) ∧
        EverySpinRun (m := 2) prec 24 (specialCluster prec which) (LowestAtMost 3))) :=
  ⟨(bounds_bravais hp which).1, (bounds_bravais hp which).2.1, (bounds_bravais hp which).2.2, bounds_honeycomb hp which⟩

/-- **C120 (two points).**  On the chain of two sites and the honeycomb lattice of one cell all bonds join the same two
points; the lowest energy is that of the singlet, the bound of `C120_weak`, and so below Anderson's bound: the condition on
the neighbours in `C120_lower` is needed. -/
theorem C120_two_points (hp : 1 ≤ prec) (h1 : 1 ≤ n1) (h2 : 1 ≤ n2) :
    EverySpinRun (m := 1) prec 2 (latticeGenerator prec "chain" 2 n1 n2)
      (fun _ J H => 0 ≤ J → IsLowest H (-(3 * J / 2))) ∧
    (1 / Real.sqrt 3 ≤ roundTo prec (1 / Real.sqrt 3) →
      EverySpinRun (m := 2) prec 2 (latticeGenerator prec "honeycomb" 1 1 n2)
        fun _ J H => 0 ≤ J → IsLowest H (-(9 * J / 4))) := by
  refine ⟨?_, fun hr => ?_⟩
  · obtain ⟨a, -⟩ := C94_generated (n0 := 2) hp (by norm_num) h1 h2
    obtain ⟨a', -⟩ := C66_generated (n0 := 2) hp (by norm_num) h1 h2
    have := singlet_run one_pos (by norm_num) coord_chain (C53_chain (n0 := 2) hp (by norm_num) h1 h2) a a'
      (apart_chain le_rfl)
    have e : ∀ J : ℝ, J * (3 * (2 : ℕ)) * 2 / 8 = 3 * J / 2 := fun J => by push_cast; ring
    simp only [e] at this
    exact this
  · obtain ⟨-, -, -, -, -, f⟩ := C94_generated (n0 := 1) (n1 := 1) hp le_rfl le_rfl h2
    obtain ⟨-, -, -, f', -, -⟩ := C66_generated (n0 := 1) (n1 := 1) hp le_rfl le_rfl h2
    have := singlet_run inv_sqrt3_pos (by norm_num) coord_honeycomb (C53_honeycomb (n0 := 1) (n1 := 1) hp le_rfl le_rfl h2)
      (f hr) f' (apart_third 1 1)
    have e : ∀ J : ℝ, J * (3 * (3 : ℕ)) * 2 / 8 = 9 * J / 4 := fun J => by push_cast; ring
    simp only [e] at this
    exact this

/-! ### The hypotheses are met -/

/-- The 4 × 4 square lattice: the lowest energy per site is between `-3 J / 4` and `-J / 2`. -/
example : ∃ (L : Lat 16 2 2) (near : _) (U : SpinSetup 16) (E : ℝ),
    latticeGenerator 4 "square" 4 4 1 = .ok ⟨16, 2, 2, L⟩ ∧
    spinClusterSetup near id (fun _ => id) 4 16 L (1 : ℝ) = some (.ok U) ∧ IsLowest U.HM E ∧ -12 ≤ E ∧ E ≤ -8 := by
  obtain ⟨near, hnear⟩ := exists_nearest 16 2
  obtain ⟨L, h1, h2⟩ := (C120_lower (prec := 4) (n0 := 4) (n1 := 4) (n2 := 1) (by norm_num) (by norm_num)
    (by norm_num) (by norm_num)).2.1 (by norm_num) (by norm_num)
  obtain ⟨L', h1', h2'⟩ := (C120_neel (prec := 4) (n0 := 4) (n1 := 4) (n2 := 1) (by norm_num) (by norm_num)
    (by norm_num) (by norm_num)).2.1 (by decide) (by decide)
  obtain rfl : L = L' := by
    have := h1.symm.trans h1'
    cases Except.ok.inj this; rfl
  obtain ⟨U, hU, hq⟩ := h2 near hnear id (fun l => List.Perm.refl l) (fun _ => id) (fun _ l => List.Perm.refl l) [] 1
  obtain ⟨U', hU', hq'⟩ := h2' near hnear id (fun l => List.Perm.refl l) (fun _ => id) (fun _ l => List.Perm.refl l) [] 1
  have hUU := hU.symm.trans hU'
  cases Option.some.inj hUU
  obtain ⟨E, hE, hb⟩ := hq zero_le_one
  obtain ⟨E', hE', hb'⟩ := hq' zero_le_one
  obtain ⟨w, hw, he⟩ := hE'.1
  have h3 := (hE.2 _ w hw he).2
  rw [Complex.ofReal_re] at h3
  have e16 : (((4 : ℤ).toNat * (4 : ℤ).toNat : ℕ) : ℝ) = 16 := by
    rw [show (4 : ℤ).toNat * (4 : ℤ).toNat = 16 from rfl]; norm_num
  rw [e16] at hb hb'
  exact ⟨L, near, U, E, h1, hU, hE, by linarith, by linarith⟩

end Verif.LDB
