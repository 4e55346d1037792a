import Verif.Proofs.BlochEnergies
import Verif.Props.LatticeBand
/-!
# The wave vectors of the honeycomb and kagome clusters
-/

namespace Verif.LDB

open Verif.Latt Demo

variable {prec : ℕ} {which : String} {n0 n1 n2 : ℤ}

theorem s3_third (k : ℝ) : Real.sqrt 3 / 3 * (k * Real.sqrt 3) = k := by
  have := s3; linear_combination k / 3 * this

theorem s3_sixth (k : ℝ) : Real.sqrt 3 / 3 * (k * (Real.sqrt 3 / 2)) = k / 2 := by
  have := s3; linear_combination k / 6 * this

/-- The phases along the two translations tell the wave vectors apart. -/
theorem hex_phase (a b : ℝ) : ∑ i, hexWave a b i * (![1, 0] : Pt 2) i = a ∧
    ∑ i, hexWave a b i * (![1 / 2, Real.sqrt 3 / 2] : Pt 2) i = b := by
  have := s3
  refine ⟨by rw [hexWave_dot]; simp, ?_⟩
  rw [hexWave_dot]
  simp only [Matrix.cons_val_zero, Matrix.cons_val_one, Matrix.cons_val_fin_one]
  linear_combination (2 * b - a) / 6 * this

theorem tri_first : (![1, 0] : Pt 2) ∈ triangleGroup := (mem_triangle _).2 ⟨1, 0, by simp, by simp⟩

theorem tri_second : (![1 / 2, Real.sqrt 3 / 2] : Pt 2) ∈ triangleGroup := (mem_triangle _).2 ⟨0, 1, by simp, by simp⟩

/-- The translations of the generated clusters. -/
theorem gen_vectors (n0 n1 : ℤ) :
    ∀ i, (![![(n0 : ℝ), 0], ![(n1 : ℝ) / 2, n1 * (Real.sqrt 3 / 2)]] : Fin 2 → Pt 2) i ∈ triangleGroup := by
  intro i
  fin_cases i
  · exact (mem_triangle _).2 ⟨n0, 0, by simp, by simp⟩
  · exact (mem_triangle _).2 ⟨0, n1, by simp, by simp⟩

theorem gen_allowed (h0 : 1 ≤ n0) (h1 : 1 ≤ n1) (a b : ℕ) :
    Allowed (![![(n0 : ℝ), 0], ![(n1 : ℝ) / 2, n1 * (Real.sqrt 3 / 2)]] : Fin 2 → Pt 2)
      (hexWave (2 * Real.pi * a / n0) (2 * Real.pi * b / n1)) := by
  have n0' : (n0 : ℝ) ≠ 0 := by positivity
  have n1' : (n1 : ℝ) ≠ 0 := by positivity
  intro i
  fin_cases i
  · refine ⟨a, ?_⟩
    rw [hexWave_dot]; simp; field_simp
  · refine ⟨b, ?_⟩
    rw [hexWave_dot]
    simp only [Fin.mk_one, Matrix.cons_val_zero, Matrix.cons_val_one, Matrix.cons_val_fin_one, s3_sixth]
    push_cast
    field_simp
    ring

theorem gen_distinct (h0 : 1 ≤ n0) (h1 : 1 ≤ n1) (x y : Fin n0.toNat × Fin n1.toNat)
    (h : ∀ g ∈ triangleGroup,
      planeWave (hexWave (2 * Real.pi * (x.1 : ℕ) / n0) (2 * Real.pi * (x.2 : ℕ) / n1)) g =
      planeWave (hexWave (2 * Real.pi * (y.1 : ℕ) / n0) (2 * Real.pi * (y.2 : ℕ) / n1)) g) : x = y := by
  have e0 := cast_toNat h0
  have e1 := cast_toNat h1
  refine Prod.ext (phase_eq (h _ tri_first) ?_ ?_) (phase_eq (h _ tri_second) ?_ ?_)
  · rw [(hex_phase _ _).1, e0]
  · rw [(hex_phase _ _).1, e0]
  · rw [(hex_phase _ _).2, e1]
  · rw [(hex_phase _ _).2, e1]

theorem energies_honeycomb (hp : 1 ≤ prec) (h0 : 1 ≤ n0) (h1 : 1 ≤ n1) (h2 : 1 ≤ n2)
    (hr : 1 / Real.sqrt 3 ≤ roundTo prec (1 / Real.sqrt 3)) :
    EveryRun prec (n0.toNat * n1.toNat * 2) (latticeGenerator prec "honeycomb" n0 n1 n2)
      (Energies 2 fun t (x : (Fin n0.toNat × Fin n1.toNat) × Fin 2) => (![1, -1] : Fin 2 → ℝ) x.2 * (t *
        Real.sqrt (3 + 2 * Real.cos (2 * Real.pi * (x.1.1 : ℕ) / n0) + 2 * Real.cos (2 * Real.pi * (x.1.2 : ℕ) / n1) +
          2 * Real.cos (2 * Real.pi * (x.1.1 : ℕ) / n0 - 2 * Real.pi * (x.1.2 : ℕ) / n1)))) := by
  obtain ⟨-, -, -, -, -, f⟩ := C94_generated hp h0 h1 h2
  obtain ⟨-, -, -, f', -, -⟩ := C66_generated hp h0 h1 h2
  have p01 : 1 ≤ n0.toNat * n1.toNat := Nat.mul_pos (by omega) (by omega)
  exact energies_bloch bloch_honeycomb inv_sqrt3_pos.ne' (by norm_num) (by omega) coord_honeycomb
    (C53_honeycomb hp h0 h1 h2) (f hr) f' (gen_vectors n0 n1) (by simp)
    (fun x : Fin n0.toNat × Fin n1.toNat => hexWave (2 * Real.pi * (x.1 : ℕ) / n0) (2 * Real.pi * (x.2 : ℕ) / n1))
    (fun x => gen_allowed h0 h1 _ _) (fun x y h => gen_distinct h0 h1 x y h) _ fun t x => honey_charpoly _ _ _

theorem energies_kagome (hp : 1 ≤ prec) (h0 : 1 ≤ n0) (h1 : 1 ≤ n1) (h2 : 1 ≤ n2) :
    EveryRun prec (n0.toNat * n1.toNat * 3) (latticeGenerator prec "kagome" n0 n1 n2)
      (Energies 2 fun t (x : (Fin n0.toNat × Fin n1.toNat) × Fin 3) => (![-2 * t,
        t * (1 + Real.sqrt (1 + 8 * (Real.cos (2 * Real.pi * (x.1.1 : ℕ) / n0 / 2) *
          Real.cos (2 * Real.pi * (x.1.2 : ℕ) / n1 / 2) *
          Real.cos (2 * Real.pi * (x.1.1 : ℕ) / n0 / 2 - 2 * Real.pi * (x.1.2 : ℕ) / n1 / 2)))),
        t * (1 - Real.sqrt (1 + 8 * (Real.cos (2 * Real.pi * (x.1.1 : ℕ) / n0 / 2) *
          Real.cos (2 * Real.pi * (x.1.2 : ℕ) / n1 / 2) *
          Real.cos (2 * Real.pi * (x.1.1 : ℕ) / n0 / 2 - 2 * Real.pi * (x.1.2 : ℕ) / n1 / 2))))] : Fin 3 → ℝ) x.2) := by
  obtain ⟨-, -, -, d, -, -⟩ := C94_generated hp h0 h1 h2
  obtain ⟨-, -, -, -, d', -⟩ := C66_generated hp h0 h1 h2
  have p01 : 1 ≤ n0.toNat * n1.toNat := Nat.mul_pos (by omega) (by omega)
  exact energies_bloch bloch_kagome (by norm_num) (by norm_num) (by omega) coord_kagome
    (C53_kagome hp h0 h1 h2) d d' (gen_vectors n0 n1) (by simp)
    (fun x : Fin n0.toNat × Fin n1.toNat => hexWave (2 * Real.pi * (x.1 : ℕ) / n0) (2 * Real.pi * (x.2 : ℕ) / n1))
    (fun x => gen_allowed h0 h1 _ _) (fun x y h => gen_distinct h0 h1 x y h) _ fun t x => kag_charpoly _ _ _

/-! ### The special clusters -/

theorem half_vectors (a b c d : ℤ) (v : Fin 2 → Pt 2) (h0 : v 0 0 = a + (b : ℝ) / 2) (h1 : v 0 1 = b * (Real.sqrt 3 / 2))
    (h2 : v 1 0 = c + (d : ℝ) / 2) (h3 : v 1 1 = d * (Real.sqrt 3 / 2)) : ∀ i, v i ∈ triangleGroup := by
  intro i
  fin_cases i
  · exact (mem_triangle _).2 ⟨a, b, h0, h1⟩
  · exact (mem_triangle _).2 ⟨c, d, h2, h3⟩

theorem half_allowed (a b c d : ℤ) (v : Fin 2 → Pt 2) (h0 : v 0 0 = a + (b : ℝ) / 2) (h1 : v 0 1 = b * (Real.sqrt 3 / 2))
    (h2 : v 1 0 = c + (d : ℝ) / 2) (h3 : v 1 1 = d * (Real.sqrt 3 / 2)) (x y : ℝ) (z w : ℤ)
    (hz : a * x + b * y = 2 * Real.pi * z) (hw : c * x + d * y = 2 * Real.pi * w) : Allowed v (hexWave x y) := by
  intro i
  fin_cases i
  · refine ⟨z, ?_⟩
    change ∑ j, hexWave x y j * v 0 j = _
    rw [hexWave_dot, h0, h1, s3_sixth, ← hz]; ring
  · refine ⟨w, ?_⟩
    change ∑ j, hexWave x y j * v 1 j = _
    rw [hexWave_dot, h2, h3, s3_sixth, ← hw]; ring

theorem energies_benzene (hp : 1 ≤ prec) (hw : which ∈ ["honeycomb_benzene", "honeycomb_6", "benzene"])
    (hf : FindsNearest prec (shifted ![1 / 2, 0] honeycombSites) (1 / Real.sqrt 3) (specialCluster prec which))
    (hfold : FoldsEverySite prec (shifted ![1 / 2, 0] honeycombSites) (specialCluster prec which)) :
    EveryRun prec 6 (specialCluster prec which) (Energies 2 fun t (x : Fin 3 × Fin 2) =>
      (![1, -1] : Fin 2 → ℝ) x.2 * (t * Real.sqrt (3 + 2 * Real.cos (2 * Real.pi * (x.1 : ℕ) / (3 : ℕ)) +
        2 * Real.cos (-(2 * Real.pi * (x.1 : ℕ) / (3 : ℕ))) +
        2 * Real.cos (2 * Real.pi * (x.1 : ℕ) / (3 : ℕ) - -(2 * Real.pi * (x.1 : ℕ) / (3 : ℕ)))))) := by
  have q0 : (1 : ℝ) / Real.sqrt 3 ≠ 0 := inv_sqrt3_pos.ne'
  refine energies_bloch (bloch_honeycomb.shift ![1 / 2, 0]) q0 (by norm_num) (by norm_num)
    (coordination_shift coord_honeycomb _) (C54_benzene hp which hw) hf hfold
    (half_vectors 2 (-1) 1 1 _ (by simp; norm_num) (by simp; ring) (by simp; norm_num) (by simp)) (by simp)
    (fun x : Fin 3 => hexWave (2 * Real.pi * (x : ℕ) / (3 : ℕ)) (-(2 * Real.pi * (x : ℕ) / (3 : ℕ))))
    (fun x => half_allowed 2 (-1) 1 1 _ (by simp; norm_num) (by simp; ring) (by simp; norm_num) (by simp) _ _ (x : ℕ) 0
      (by push_cast; ring) (by push_cast; ring)) (fun x y h => phase_eq (h _ tri_first) ?_ ?_) _
    fun t x => honey_charpoly _ _ _
  · rw [(hex_phase _ _).1]
  · rw [(hex_phase _ _).1]

theorem energies_diphenyl (hp : 1 ≤ prec) (hw : which ∈ ["honeycomb_diphenyl", "honeycomb_10", "diphenyl"])
    (hf : FindsNearest prec (shifted ![0, 0] honeycombSites) (1 / Real.sqrt 3) (specialCluster prec which))
    (hfold : FoldsEverySite prec (shifted ![0, 0] honeycombSites) (specialCluster prec which)) :
    EveryRun prec 10 (specialCluster prec which) (Energies 2 fun t (x : Fin 5 × Fin 2) =>
      (![1, -1] : Fin 2 → ℝ) x.2 * (t * Real.sqrt (3 + 2 * Real.cos (2 * Real.pi * (x.1 : ℕ) / (5 : ℕ)) +
        2 * Real.cos (-(2 * (2 * Real.pi * (x.1 : ℕ) / (5 : ℕ)))) +
        2 * Real.cos (2 * Real.pi * (x.1 : ℕ) / (5 : ℕ) - -(2 * (2 * Real.pi * (x.1 : ℕ) / (5 : ℕ))))))) := by
  have q0 : (1 : ℝ) / Real.sqrt 3 ≠ 0 := inv_sqrt3_pos.ne'
  refine energies_bloch (bloch_honeycomb.shift ![0, 0]) q0 (by norm_num) (by norm_num)
    (coordination_shift coord_honeycomb _) (C54_diphenyl hp which hw) hf hfold
    (half_vectors 3 (-1) 2 1 _ (by simp; norm_num) (by simp; ring) (by simp; norm_num) (by simp)) (by simp)
    (fun x : Fin 5 => hexWave (2 * Real.pi * (x : ℕ) / (5 : ℕ)) (-(2 * (2 * Real.pi * (x : ℕ) / (5 : ℕ)))))
    (fun x => half_allowed 3 (-1) 2 1 _ (by simp; norm_num) (by simp; ring) (by simp; norm_num) (by simp) _ _ (x : ℕ) 0
      (by push_cast; ring) (by push_cast; ring)) (fun x y h => phase_eq (h _ tri_first) ?_ ?_) _
    fun t x => honey_charpoly _ _ _
  · rw [(hex_phase _ _).1]
  · rw [(hex_phase _ _).1]

theorem energies_gear (hp : 1 ≤ prec) (hw : which ∈ ["honeycomb_gear", "honeycomb_24", "gear"])
    (hf : FindsNearest prec (shifted ![1 / 2, 0] honeycombSites) (1 / Real.sqrt 3) (specialCluster prec which))
    (hfold : FoldsEverySite prec (shifted ![1 / 2, 0] honeycombSites) (specialCluster prec which)) :
    EveryRun prec 24 (specialCluster prec which) (Energies 2 fun t (x : (Fin 6 × Fin 2) × Fin 2) =>
      (![1, -1] : Fin 2 → ℝ) x.2 * (t * Real.sqrt (3 + 2 * Real.cos (2 * Real.pi * (x.1.1 : ℕ) / (6 : ℕ)) +
        2 * Real.cos (2 * Real.pi * (x.1.2 : ℕ) / (2 : ℕ) - 2 * Real.pi * (x.1.1 : ℕ) / (6 : ℕ)) +
        2 * Real.cos (2 * Real.pi * (x.1.1 : ℕ) / (6 : ℕ) -
          (2 * Real.pi * (x.1.2 : ℕ) / (2 : ℕ) - 2 * Real.pi * (x.1.1 : ℕ) / (6 : ℕ)))))) := by
  have q0 : (1 : ℝ) / Real.sqrt 3 ≠ 0 := inv_sqrt3_pos.ne'
  refine energies_bloch (bloch_honeycomb.shift ![1 / 2, 0]) q0 (by norm_num) (by norm_num)
    (coordination_shift coord_honeycomb _) (C54_gear hp which hw) hf hfold
    (half_vectors 4 (-2) 2 2 _ (by simp; norm_num) (by simp; ring) (by simp; norm_num) (by simp; ring)) (by simp)
    (fun x : Fin 6 × Fin 2 => hexWave (2 * Real.pi * (x.1 : ℕ) / (6 : ℕ))
      (2 * Real.pi * (x.2 : ℕ) / (2 : ℕ) - 2 * Real.pi * (x.1 : ℕ) / (6 : ℕ)))
    (fun x => half_allowed 4 (-2) 2 2 _ (by simp; norm_num) (by simp; ring) (by simp; norm_num) (by simp; ring) _ _
      ((x.1 : ℕ) - (x.2 : ℕ)) (x.2 : ℕ) (by push_cast; ring) (by push_cast; ring))
    (fun x y h => Prod.ext (phase_eq (h _ tri_first) ?_ ?_)
      (phase_eq (h _ (triangleGroup.add_mem tri_first tri_second)) ?_ ?_)) _
    fun t x => honey_charpoly _ _ _
  · rw [(hex_phase _ _).1]
  · rw [(hex_phase _ _).1]
  · simp only [Pi.add_apply, mul_add, Finset.sum_add_distrib]
    rw [(hex_phase _ _).1, (hex_phase _ _).2]; ring
  · simp only [Pi.add_apply, mul_add, Finset.sum_add_distrib]
    rw [(hex_phase _ _).1, (hex_phase _ _).2]; ring

end Verif.LDB
