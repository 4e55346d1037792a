import Verif.Proofs.LatticeSpin
import Verif.Props.LatticeBand
/-!
# C114: the Heisenberg model of the built-in lattices, end to end

A cluster is built, `bonds(1)` is called, every bond becomes three exchange terms, their matrices are added with their
conjugates, as in the scripts HeisenbergChain1.py and HeisenbergChain2.py.
-/

namespace Verif.LDB

open Verif.Latt Verif.Spec Matrix Demo

variable {prec : ℕ} {n0 n1 n2 : ℤ}

/-- **C114 (every size).**  The Heisenberg Hamiltonian, plus a field on points that are their own neighbours. -/
theorem C114_field (hp : 1 ≤ prec) (h0 : 1 ≤ n0) (h1 : 1 ≤ n1) (h2 : 1 ≤ n2) :
    EverySpinRun prec n0.toNat (latticeGenerator prec "chain" n0 n1 n2) (HeisenbergField chainSites 1) ∧
    EverySpinRun prec (n0.toNat * n1.toNat) (latticeGenerator prec "square" n0 n1 n2) (HeisenbergField squareSites 1) ∧
    EverySpinRun prec (n0.toNat * n1.toNat) (latticeGenerator prec "triangle" n0 n1 n2)
      (HeisenbergField triangleSites 1) ∧
    EverySpinRun prec (n0.toNat * n1.toNat * n2.toNat) (latticeGenerator prec "cubic" n0 n1 n2)
      (HeisenbergField cubicSites 1) := by
  obtain ⟨a, b, c, -, e, -⟩ := C94_generated hp h0 h1 h2
  obtain ⟨a', b', c', -, -, e'⟩ := C66_generated hp h0 h1 h2
  have p0 : 1 ≤ n0.toNat := by omega
  have p1 : 1 ≤ n1.toNat := by omega
  have p2 : 1 ≤ n2.toNat := by omega
  have p01 : 1 ≤ n0.toNat * n1.toNat := Nat.mul_pos p0 p1
  have p012 : 1 ≤ n0.toNat * n1.toNat * n2.toNat := Nat.mul_pos p01 p2
  exact ⟨field_run one_ne_zero (by norm_num) p0 coord_chain (C53_chain hp h0 h1 h2) a a',
    field_run one_ne_zero (by norm_num) p01 coord_square (C53_square hp h0 h1 h2) b b',
    field_run one_ne_zero (by norm_num) p01 coord_triangle (C53_triangle hp h0 h1 h2) c c',
    field_run one_ne_zero (by norm_num) p012 coord_cubic (C53_cubic hp h0 h1 h2) e e'⟩

/-- **C114 (generated lattices).**  Two cells or more in every direction; kagome and honeycomb of every size. -/
theorem C114_generated (hp : 1 ≤ prec) (h0 : 1 ≤ n0) (h1 : 1 ≤ n1) (h2 : 1 ≤ n2) :
    (2 ≤ n0 → EverySpinRun prec n0.toNat (latticeGenerator prec "chain" n0 n1 n2)
      (HeisenbergFerromagnet chainSites 1 2)) ∧
    (2 ≤ n0 → 2 ≤ n1 → EverySpinRun prec (n0.toNat * n1.toNat) (latticeGenerator prec "square" n0 n1 n2)
      (HeisenbergFerromagnet squareSites 1 4)) ∧
    (2 ≤ n0 → 2 ≤ n1 → EverySpinRun prec (n0.toNat * n1.toNat) (latticeGenerator prec "triangle" n0 n1 n2)
      (HeisenbergFerromagnet triangleSites 1 6)) ∧
    (2 ≤ n0 → 2 ≤ n1 → 2 ≤ n2 → EverySpinRun prec (n0.toNat * n1.toNat * n2.toNat)
      (latticeGenerator prec "cubic" n0 n1 n2) (HeisenbergFerromagnet cubicSites 1 6)) ∧
    EverySpinRun prec (n0.toNat * n1.toNat * 3) (latticeGenerator prec "kagome" n0 n1 n2)
      (HeisenbergFerromagnet kagomeSites (1 / 2) 4) ∧
    (1 / Real.sqrt 3 ≤ roundTo prec (1 / Real.sqrt 3) →
      EverySpinRun prec (n0.toNat * n1.toNat * 2) (latticeGenerator prec "honeycomb" n0 n1 n2)
        (HeisenbergFerromagnet honeycombSites (1 / Real.sqrt 3) 3)) := by
  obtain ⟨a, b, c, d, e, f⟩ := C94_generated hp h0 h1 h2
  obtain ⟨a', b', c', f', d', e'⟩ := C66_generated hp h0 h1 h2
  have p0 : 1 ≤ n0.toNat := by omega
  have p1 : 1 ≤ n1.toNat := by omega
  have p2 : 1 ≤ n2.toNat := by omega
  have p01 : 1 ≤ n0.toNat * n1.toNat := Nat.mul_pos p0 p1
  have p012 : 1 ≤ n0.toNat * n1.toNat * n2.toNat := Nat.mul_pos p01 p2
  exact ⟨fun q0 => model_run one_ne_zero (by norm_num) p0 coord_chain (C53_chain hp h0 h1 h2) a a' (apart_chain q0),
    fun q0 q1 => model_run one_ne_zero (by norm_num) p01 coord_square (C53_square hp h0 h1 h2) b b' (apart_square q0 q1),
    fun q0 q1 => model_run one_ne_zero (by norm_num) p01 coord_triangle (C53_triangle hp h0 h1 h2) c c'
      (apart_triangle q0 q1),
    fun q0 q1 q2 => model_run one_ne_zero (by norm_num) p012 coord_cubic (C53_cubic hp h0 h1 h2) e e'
      (apart_cubic q0 q1 q2),
    model_run (by norm_num) (by norm_num) (by omega) coord_kagome (C53_kagome hp h0 h1 h2) d d' (apart_half n0 n1),
    fun hr => model_run inv_sqrt3_pos.ne' (by norm_num) (by omega) coord_honeycomb
      (C53_honeycomb hp h0 h1 h2) (f hr) f' (apart_third n0 n1)⟩

/-- The clusters of the square and triangular lattices. -/
theorem spin_bravais (hp : 1 ≤ prec) (which : String) :
    (which ∈ ["square_cross", "square_12", "cross"] → EverySpinRun prec 12 (specialCluster prec which)
      (HeisenbergFerromagnet (shifted ![1 / 2, 1 / 2] squareSites) 1 4)) ∧
    (which ∈ ["square_z", "z", "square_s", "s"] → EverySpinRun prec 10 (specialCluster prec which)
      (HeisenbergFerromagnet (shifted ![1 / 2, 0] squareSites) 1 4)) ∧
    (which ∈ ["triangle_star", "triangle_13", "star", "SD"] → EverySpinRun prec 13 (specialCluster prec which)
      (HeisenbergFerromagnet (shifted ![0, 0] triangleSites) 1 6)) := by
  obtain ⟨a, b, c, -⟩ := C94_special hp which
  obtain ⟨a', b', c', d', -, -, -⟩ := folds_names hp which
  refine ⟨fun h => model_run one_ne_zero (by norm_num) (by norm_num) (coordination_shift coord_square _)
      (C54_cross hp which h) (a h) (a' h) apart_cross, fun h => ?_,
    fun h => model_run one_ne_zero (by norm_num) (by norm_num) (coordination_shift coord_triangle _)
      (C54_star hp which h) (c h) (d' h) apart_star⟩
  by_cases hz : which ∈ ["square_z", "z"]
  · exact model_run one_ne_zero (by norm_num) (by norm_num) (coordination_shift coord_square _)
      (C54_z hp which hz) (b h) (b' hz) apart_z
  · have hs : which ∈ ["square_s", "s"] := by
      simp only [List.mem_cons, List.not_mem_nil, or_false, not_or] at h hz ⊢
      tauto
    exact model_run one_ne_zero (by norm_num) (by norm_num) (coordination_shift coord_square _)
      (C54_s hp which hs) (b h) (c' hs) apart_s

/-- The clusters of the honeycomb lattice. -/
theorem spin_honeycomb (hp : 1 ≤ prec) (which : String) (hr : 1 / Real.sqrt 3 ≤ roundTo prec (1 / Real.sqrt 3)) :
    (which ∈ ["honeycomb_benzene", "honeycomb_6", "benzene"] → EverySpinRun prec 6 (specialCluster prec which)
      (HeisenbergFerromagnet (shifted ![1 / 2, 0] honeycombSites) (1 / Real.sqrt 3) 3)) ∧
    (which ∈ ["honeycomb_diphenyl", "honeycomb_10", "diphenyl"] → EverySpinRun prec 10 (specialCluster prec which)
      (HeisenbergFerromagnet (shifted ![0, 0] honeycombSites) (1 / Real.sqrt 3) 3)) ∧
    (which ∈ ["honeycomb_gear", "honeycomb_24", "gear"] → EverySpinRun prec 24 (specialCluster prec which)
      (HeisenbergFerromagnet (shifted ![1 / 2, 0] honeycombSites) (1 / Real.sqrt 3) 3)) := by
  obtain ⟨-, -, -, d⟩ := C94_special hp which
  obtain ⟨-, -, -, -, e', f', g'⟩ := folds_names hp which
  have hd := (d hr).1
  have hd2 := (d hr).2
  have h0 : (1 : ℝ) / Real.sqrt 3 ≠ 0 := inv_sqrt3_pos.ne'
  have co := coord_honeycomb
  have ap1 := apart_benzene
  have ap2 := apart_diphenyl
  have ap3 := apart_gear
  generalize (1 : ℝ) / Real.sqrt 3 = dd at *
  refine ⟨fun h => ?_, fun h => ?_, fun h => ?_⟩
  · refine model_run h0 (by norm_num) (by norm_num) (coordination_shift co _)
      (C54_benzene hp which h) (hd ?_) (e' h) ap1
    simp only [List.mem_cons, List.not_mem_nil, or_false] at h
    rcases h with h | h | h <;> simp [h]
  · exact model_run h0 (by norm_num) (by norm_num) (coordination_shift co _)
      (C54_diphenyl hp which h) (hd2 h) (f' h) ap2
  · refine model_run h0 (by norm_num) (by norm_num) (coordination_shift co _)
      (C54_gear hp which h) (hd ?_) (g' h) ap3
    simp only [List.mem_cons, List.not_mem_nil, or_false] at h
    rcases h with h | h | h <;> simp [h]

/-- **C114 (special clusters).** -/
theorem C114_special (hp : 1 ≤ prec) (which : String) :
    (which ∈ ["square_cross", "square_12", "cross"] → EverySpinRun prec 12 (specialCluster prec which)
      (HeisenbergFerromagnet (shifted ![1 / 2, 1 / 2] squareSites) 1 4)) ∧
    (which ∈ ["square_z", "z", "square_s", "s"] → EverySpinRun prec 10 (specialCluster prec which)
      (HeisenbergFerromagnet (shifted ![1 / 2, 0] squareSites) 1 4)) ∧
    (which ∈ ["triangle_star", "triangle_13", "star", "SD"] → EverySpinRun prec 13 (specialCluster prec which)
      (HeisenbergFerromagnet (shifted ![0, 0] triangleSites) 1 6)) ∧
    (1 / Real.sqrt 3 ≤ roundTo prec (1 / Real.sqrt 3) →
      (which ∈ ["honeycomb_benzene", "honeycomb_6", "benzene"] → EverySpinRun prec 6 (specialCluster prec which)
        (HeisenbergFerromagnet (shifted ![1 / 2, 0] honeycombSites) (1 / Real.sqrt 3) 3)) ∧
      (which ∈ ["honeycomb_diphenyl", "honeycomb_10", "diphenyl"] → EverySpinRun prec 10 (specialCluster prec which)
        (HeisenbergFerromagnet (shifted ![0, 0] honeycombSites) (1 / Real.sqrt 3) 3)) ∧
      (which ∈ ["honeycomb_gear", "honeycomb_24", "gear"] → EverySpinRun prec 24 (specialCluster prec which)
        (HeisenbergFerromagnet (shifted ![1 / 2, 0] honeycombSites) (1 / Real.sqrt 3) 3))) :=
  ⟨(spin_bravais hp which).1, (spin_bravais hp which).2.1, (spin_bravais hp which).2.2, spin_honeycomb hp which⟩

/-- **C114 (spin waves).**  On every Bravais cluster of two cells or more in every direction. -/
theorem C114_spin_waves (hp : 1 ≤ prec) (h0 : 2 ≤ n0) (h1 : 2 ≤ n1) (h2 : 2 ≤ n2) :
    EverySpinRun prec n0.toNat (latticeGenerator prec "chain" n0 n1 n2) (SpinWaves chainSteps) ∧
    EverySpinRun prec (n0.toNat * n1.toNat) (latticeGenerator prec "square" n0 n1 n2) (SpinWaves squareSteps) ∧
    EverySpinRun prec (n0.toNat * n1.toNat) (latticeGenerator prec "triangle" n0 n1 n2) (SpinWaves triangleSteps) ∧
    EverySpinRun prec (n0.toNat * n1.toNat * n2.toNat) (latticeGenerator prec "cubic" n0 n1 n2)
      (SpinWaves cubicSteps) := by
  have q0 : 1 ≤ n0 := by omega
  have q1 : 1 ≤ n1 := by omega
  have q2 : 1 ≤ n2 := by omega
  have p0 : 1 ≤ n0.toNat := by omega
  have p1 : 1 ≤ n1.toNat := by omega
  have p2 : 1 ≤ n2.toNat := by omega
  have p01 : 1 ≤ n0.toNat * n1.toNat := Nat.mul_pos p0 p1
  have p012 : 1 ≤ n0.toNat * n1.toNat * n2.toNat := Nat.mul_pos p01 p2
  obtain ⟨a, b, c, d, -, -⟩ := C114_generated hp q0 q1 q2
  exact ⟨waves_run p0 coord_chain (C53_chain hp q0 q1 q2) (a h0) steps_chain,
    waves_run p01 coord_square (C53_square hp q0 q1 q2) (b h0 h1) steps_square,
    waves_run p01 coord_triangle (C53_triangle hp q0 q1 q2) (c h0 h1) steps_triangle,
    waves_run p012 coord_cubic (C53_cubic hp q0 q1 q2) (d h0 h1 h2) steps_cubic⟩

/-- **C114 (spin waves, special clusters).** -/
theorem C114_spin_waves_special (hp : 1 ≤ prec) (which : String) :
    (which ∈ ["square_cross", "square_12", "cross"] → EverySpinRun prec 12 (specialCluster prec which)
      (SpinWaves squareSteps)) ∧
    (which ∈ ["square_z", "z", "square_s", "s"] → EverySpinRun prec 10 (specialCluster prec which)
      (SpinWaves squareSteps)) ∧
    (which ∈ ["triangle_star", "triangle_13", "star", "SD"] → EverySpinRun prec 13 (specialCluster prec which)
      (SpinWaves triangleSteps)) := by
  obtain ⟨a, b, c⟩ := spin_bravais hp which
  refine ⟨fun h => waves_run (by norm_num) (coordination_shift coord_square _) (C54_cross hp which h) (a h)
      (steps_shift steps_square _), fun h => ?_,
    fun h => waves_run (by norm_num) (coordination_shift coord_triangle _) (C54_star hp which h) (c h)
      (steps_shift steps_triangle _)⟩
  by_cases hz : which ∈ ["square_z", "z"]
  · exact waves_run (by norm_num) (coordination_shift coord_square _) (C54_z hp which hz) (b h)
      (steps_shift steps_square _)
  · have hs : which ∈ ["square_s", "s"] := by
      simp only [List.mem_cons, List.not_mem_nil, or_false, not_or] at h hz ⊢
      tauto
    exact waves_run (by norm_num) (coordination_shift coord_square _) (C54_s hp which hs) (b h)
      (steps_shift steps_square _)

/-- **C114 (rotation symmetry, exactly when).**  A cluster of one cell in some direction has points that are their own
neighbours: the field that their bonds add breaks the symmetry.  (Kagome and honeycomb clusters have no such points.) -/
theorem C114_symmetric_iff (hp : 1 ≤ prec) (h0 : 1 ≤ n0) (h1 : 1 ≤ n1) (h2 : 1 ≤ n2) :
    EverySpinRun (m := 1) prec n0.toNat (latticeGenerator prec "chain" n0 n1 n2)
      (fun _ J H => Commute H (totalSpinOp n0.toNat .x) ↔ J = 0 ∨ 2 ≤ n0) ∧
    EverySpinRun (m := 2) prec (n0.toNat * n1.toNat) (latticeGenerator prec "square" n0 n1 n2)
      (fun _ J H => Commute H (totalSpinOp (n0.toNat * n1.toNat) .x) ↔ J = 0 ∨ 2 ≤ n0 ∧ 2 ≤ n1) ∧
    EverySpinRun (m := 2) prec (n0.toNat * n1.toNat) (latticeGenerator prec "triangle" n0 n1 n2)
      (fun _ J H => Commute H (totalSpinOp (n0.toNat * n1.toNat) .x) ↔ J = 0 ∨ 2 ≤ n0 ∧ 2 ≤ n1) ∧
    EverySpinRun (m := 3) prec (n0.toNat * n1.toNat * n2.toNat) (latticeGenerator prec "cubic" n0 n1 n2)
      (fun _ J H => Commute H (totalSpinOp (n0.toNat * n1.toNat * n2.toNat) .x) ↔
        J = 0 ∨ 2 ≤ n0 ∧ 2 ≤ n1 ∧ 2 ≤ n2) := by
  obtain ⟨a, b, c, d⟩ := C114_field hp h0 h1 h2
  have p0 : 1 ≤ n0.toNat := by omega
  have p1 : 1 ≤ n1.toNat := by omega
  have p2 : 1 ≤ n2.toNat := by omega
  have p01 : 1 ≤ n0.toNat * n1.toNat := Nat.mul_pos p0 p1
  have p012 : 1 ≤ n0.toNat * n1.toNat * n2.toNat := Nat.mul_pos p01 p2
  refine ⟨symmetric_run zero_le_one (by norm_num) p0 coord_chain (C53_chain hp h0 h1 h2) a _ apart_chain fun hn => ?_,
    symmetric_run zero_le_one (by norm_num) p01 coord_square (C53_square hp h0 h1 h2) b _
      (fun q => apart_square q.1 q.2) fun hn => ?_,
    symmetric_run zero_le_one (by norm_num) p01 coord_triangle (C53_triangle hp h0 h1 h2) c _
      (fun q => apart_triangle q.1 q.2) fun hn => ?_,
    symmetric_run zero_le_one (by norm_num) p012 coord_cubic (C53_cubic hp h0 h1 h2) d _
      (fun q => apart_cubic q.1 q.2.1 q.2.2) fun hn => ?_⟩
  · have e : n0 = 1 := by omega
    subst e
    exact ⟨![1], by simp [comb]⟩
  · rcases (by omega : n0 = 1 ∨ n1 = 1) with e | e
    · subst e
      exact ⟨![1, 0], by simp [comb, Fin.sum_univ_two]⟩
    · subst e
      exact ⟨![0, 1], by simp [comb, Fin.sum_univ_two]⟩
  · rcases (by omega : n0 = 1 ∨ n1 = 1) with e | e
    · subst e
      exact ⟨![1, 0], by rw [triangle_norm]; simp⟩
    · subst e
      exact ⟨![0, 1], by rw [triangle_norm]; simp⟩
  · rcases (by omega : n0 = 1 ∨ n1 = 1 ∨ n2 = 1) with e | e | e
    · subst e
      exact ⟨![1, 0, 0], by simp [comb, Fin.sum_univ_three]⟩
    · subst e
      exact ⟨![0, 1, 0], by simp [comb, Fin.sum_univ_three]⟩
    · subst e
      exact ⟨![0, 0, 1], by simp [comb, Fin.sum_univ_three]⟩

/-- **C114 (the chain of one site).**  Not the constant `3 J / 4`, but a magnetic field `J` added to it. -/
theorem C114_self_neighbour (hp : 1 ≤ prec) (h1 : 1 ≤ n1) (h2 : 1 ≤ n2) :
    EverySpinRun (m := 1) prec 1 (latticeGenerator prec "chain" 1 n1 n2) fun _ J H =>
      H = ((3 * J / 4 : ℝ) : ℂ) • 1 + (J : ℂ) • siteOp 1 0 (spinHalf .z) :=
  self_chain (C53_chain hp le_rfl h1 h2) ((C114_field hp le_rfl h1 h2).1)

/-! ### The hypotheses are met -/

/-- A spin wave on the 2 × 3 square lattice. -/
example (J : ℝ) : ∃ (L : Lat 6 2 2) (near : _) (U : SpinSetup 6), latticeGenerator 4 "square" 2 3 1 = .ok ⟨6, 2, 2, L⟩ ∧
    spinClusterSetup near id (fun _ => id) 4 6 L J = some (.ok U) ∧ U.HM.IsHermitian ∧
    U.HM *ᵥ upState 6 = ((J * 4 * 6 / 8 : ℝ) : ℂ) • upState 6 := by
  obtain ⟨near, hnear⟩ := exists_nearest 6 2
  obtain ⟨L, h1, h2⟩ := (C114_generated (prec := 4) (n0 := 2) (n1 := 3) (n2 := 1) (by norm_num) (by norm_num)
    (by norm_num) (by norm_num)).2.1 (by norm_num) (by norm_num)
  obtain ⟨U, hU, hq⟩ := h2 near hnear id (fun l => List.Perm.refl l) (fun _ => id) (fun _ l => List.Perm.refl l) [] J
  exact ⟨L, near, U, h1, hU, hq.1.2.1, by exact_mod_cast hq.2.1⟩

end Verif.LDB
