import Verif.Model.Lattice
import Verif.Model.Lanczos
import Verif.Model.Polygon
import Mathlib.Analysis.InnerProductSpace.PiL2
/-!
# The numerical primitives used in the statements of other properties

The distances, norms, inner products and roundings of the models, identified with Mathlib's notions.
-/

namespace Verif

open scoped ComplexConjugate

/-- **C48** (primitives).  The distance and the norm of the lattice model are those of Euclidean space, `comb` is the
integer combination of the translation vectors, and `rint` is the nearest integer, the even one of two. -/
theorem Latt.C48_primitives {m k : ℕ} (p q : Latt.Pt m) (v : Fin k → Latt.Pt m) (c : Fin k → ℤ) (x : ℝ) :
    Latt.ndist p q = dist (WithLp.toLp 2 p) (WithLp.toLp 2 q) ∧ Latt.nnorm p = ‖WithLp.toLp 2 p‖ ∧
    Latt.comb v c = ∑ i, c i • v i ∧ |(Latt.rint x : ℝ) - x| ≤ 1 / 2 ∧
    (|(Latt.rint x : ℝ) - x| = 1 / 2 → Even (Latt.rint x)) := by
  refine ⟨?_, ?_, ?_, ?_, ?_⟩
  · rw [EuclideanSpace.dist_eq, Latt.ndist]
    simp [Real.dist_eq, sq_abs]
  · rw [EuclideanSpace.norm_eq, Latt.nnorm]
    simp [sq_abs]
  · funext a
    simp [Latt.comb, Finset.sum_apply]
  · have h1 := Int.floor_le x
    have h2 := Int.lt_floor_add_one x
    unfold Latt.rint
    split_ifs <;> rw [abs_le] <;> push_cast <;> constructor <;> linarith
  · have h1 := Int.floor_le x
    have h2 := Int.lt_floor_add_one x
    unfold Latt.rint
    split_ifs with a b d
    · intro h
      rw [abs_of_nonpos (by linarith)] at h
      linarith
    · intro h
      push_cast at h
      rw [abs_of_nonneg (by linarith)] at h
      linarith
    · exact fun _ => Int.even_iff.2 d
    · exact fun _ => by rw [Int.even_add_one, Int.even_iff]; exact d

/-- The distance of (0, 0) and (3, 4). -/
example : Latt.ndist ![0, 0] ![3, 4] = 5 ∧ Latt.rint (5 / 2) = 2 ∧ Latt.rint (7 / 2) = 4 := by
  refine ⟨?_, ?_, ?_⟩
  · rw [Latt.ndist, Fin.sum_univ_two]
    norm_num
    rw [show (25 : ℝ) = 5 ^ 2 by norm_num]
    exact Real.sqrt_sq (by norm_num)
  · have : ⌊(5 / 2 : ℝ)⌋ = 2 := by rw [Int.floor_eq_iff]; norm_num
    simp only [Latt.rint, this]
    norm_num
  · have : ⌊(7 / 2 : ℝ)⌋ = 3 := by rw [Int.floor_eq_iff]; norm_num
    simp only [Latt.rint, this]
    norm_num

/-- **C56** (primitives).  `vdot` is the inner product, linear in its second argument, and `norm2` its norm. -/
theorem Lanczos.C56_primitives {N : ℕ} (a b : Lanczos.Vec N) :
    Lanczos.vdot a b = inner ℂ (WithLp.toLp 2 a : EuclideanSpace ℂ (Fin N)) (WithLp.toLp 2 b) ∧
    Lanczos.norm2 a = ‖(WithLp.toLp 2 a : EuclideanSpace ℂ (Fin N))‖ := by
  refine ⟨?_, ?_⟩
  · rw [PiLp.inner_apply, Lanczos.vdot]
    refine Finset.sum_congr rfl fun i _ => ?_
    simp [RCLike.inner_apply, mul_comm]
  · rw [EuclideanSpace.norm_eq, Lanczos.norm2]
    simp [Complex.normSq_eq_norm_sq]

/-- **C42** (primitives).  The distance of the polygon model is that of the plane. -/
theorem C42_primitives (p q : Pt) : euclid p q = dist (!₂[p.1, p.2] : EuclideanSpace ℝ (Fin 2)) !₂[q.1, q.2] := by
  rw [EuclideanSpace.dist_eq, euclid]
  simp [Real.dist_eq, sq_abs]

example : Lanczos.vdot ![Complex.I] ![Complex.I] = 1 ∧ euclid (0, 0) (0, 2) = 2 := by
  refine ⟨by simp [Lanczos.vdot], ?_⟩
  rw [euclid, show ((((0 : ℝ), (0 : ℝ)).1 - ((0 : ℝ), (2 : ℝ)).1) ^ 2 + (((0 : ℝ), (0 : ℝ)).2 - ((0 : ℝ), (2 : ℝ)).2) ^ 2) = 2 ^ 2 by norm_num]
  exact Real.sqrt_sq (by norm_num)

end Verif
