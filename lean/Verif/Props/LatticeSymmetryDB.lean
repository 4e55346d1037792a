import Verif.Props.LatticeSymmetry
/-!
# C67 for the entries of the database
-/

namespace Verif.LDB

open Verif.Latt Matrix

/-- The X- and M-points computed for `AS` are the edge middles and the corners of the zone. -/
def SquarePoints (AS : Fin 2 → Pt 2) : Prop :=
  ∀ k, (k ∈ squareXs AS ↔ IsEdgeMiddle (bsCalculator AS) k) ∧
    (k ∈ squareMs AS ↔ IsCorner (bsCalculator AS) k)

/-- The M- and K-points computed for `AS` are the edge middles and the corners of the zone. -/
def HexagonPoints (AS : Fin 2 → Pt 2) : Prop :=
  ∀ k, (k ∈ hexMs AS ↔ IsEdgeMiddle (bsCalculator AS) k) ∧
    (k ∈ hexKs AS ↔ IsCorner (bsCalculator AS) k)

/-- **C67 (two-dimensional entries).** All the `_XS`, `_MS`, `_KS` of the module. -/
theorem C67_database_2d :
    SquarePoints squareCell.vectors ∧ SquarePoints squareZ.vectors ∧ SquarePoints squareS.vectors ∧
    HexagonPoints triangleCell.vectors ∧ HexagonPoints honeycombCell.vectors ∧
    HexagonPoints kagomeCell.vectors ∧ HexagonPoints triangleStar.vectors ∧
    HexagonPoints honeycombBenzene.vectors ∧ HexagonPoints honeycombGear.vectors := by
  have h3 := r3_sq
  have hpos := r3_pos
  have hex : ∀ AS : Fin 2 → Pt 2, AS 0 0 * AS 1 1 - AS 0 1 * AS 1 0 ≠ 0 →
      gram AS 0 0 = gram AS 1 1 → 2 * gram AS 0 1 = gram AS 0 0 → HexagonPoints AS :=
    fun AS a b c k => C67_hexagon AS a b c k
  have tri : HexagonPoints triangleCell.vectors := by
    refine hex _ ?_ ?_ ?_ <;>
      simp only [gram, Fin.sum_univ_two, triangleCell, Matrix.cons_val_zero, Matrix.cons_val_one,
        Matrix.cons_val_fin_one]
    · nlinarith
    · linear_combination (-1 / 4 : ℝ) * h3
    · norm_num
  refine ⟨fun k => C67_square _ ?_ ?_ ?_ k, fun k => C67_square _ ?_ ?_ ?_ k,
    fun k => C67_square _ ?_ ?_ ?_ k, tri, tri, tri, hex _ ?_ ?_ ?_, hex _ ?_ ?_ ?_, hex _ ?_ ?_ ?_⟩ <;>
    simp only [gram, Fin.sum_univ_two, squareCell, squareZ, squareS, triangleStar, honeycombBenzene,
      honeycombGear, Matrix.cons_val_zero, Matrix.cons_val_one, Matrix.cons_val_fin_one]
  any_goals norm_num
  any_goals nlinarith

/-- **C67 (reciprocal vectors).** The reciprocal vectors computed by the database agree with those of the
lattice object, for every accepted lattice with as many vectors as dimensions. -/
theorem C67_bs {prec n m : ℕ} {points : Fin n → Pt m} {vectors : Fin m → Pt m} {L : Lat n m m}
    (h : init prec points vectors = .ok L) : L.bs = bsCalculator vectors := by
  obtain ⟨h1, h2, h3, h4, h5⟩ := C46_reciprocal_dual h
  have hli := (C46_accepted_iff prec points vectors).1 ⟨L, h⟩
  have hU : IsUnit (Matrix.of vectors)ᵀ := by
    rw [Matrix.isUnit_transpose]
    exact (Matrix.linearIndependent_rows_iff_isUnit (A := Matrix.of vectors)).1 hli.2.2.2.2
  have hdet : IsUnit (Matrix.of vectors)ᵀ.det := (Matrix.isUnit_iff_isUnit_det _).1 hU
  have hprod : Matrix.of L.bs * (Matrix.of vectors)ᵀ = (2 * Real.pi) • 1 := by
    ext i j
    have := h3 i j
    rw [h2] at this
    rw [Matrix.mul_apply, Matrix.smul_apply, Matrix.one_apply]
    simp only [Matrix.of_apply, Matrix.transpose_apply]
    rw [this]
    split_ifs <;> simp
  have : Matrix.of L.bs = (2 * Real.pi) • ((Matrix.of vectors)ᵀ)⁻¹ := by
    calc Matrix.of L.bs = Matrix.of L.bs * ((Matrix.of vectors)ᵀ * ((Matrix.of vectors)ᵀ)⁻¹) := by
          rw [Matrix.mul_nonsing_inv _ hdet, Matrix.mul_one]
      _ = _ := by rw [← Matrix.mul_assoc, hprod, Matrix.smul_mul, Matrix.one_mul]
  funext i a
  rw [bsCalculator, ← this]; rfl

/-- The reciprocal vectors of the cubic cell. -/
theorem bs_cubic (i a : Fin 3) : bsCalculator cubicCell.vectors i a = if i = a then 2 * Real.pi else 0 := by
  have h1 : (Matrix.of cubicCell.vectors) = 1 := by
    ext i j; fin_cases i <;> fin_cases j <;> simp [cubicCell]
  rw [bsCalculator, h1, Matrix.transpose_one, inv_one, Matrix.smul_apply, Matrix.one_apply]
  split_ifs <;> simp

/-- The reciprocal vector of the chain. -/
theorem bs_chain (i a : Fin 1) : bsCalculator chainCell.vectors i a = 2 * Real.pi := by
  have h1 : (Matrix.of chainCell.vectors) = 1 := by
    ext i j; fin_cases i; fin_cases j; simp [chainCell]
  rw [bsCalculator, h1, Matrix.transpose_one, inv_one, Matrix.smul_apply, Matrix.one_apply]
  rw [if_pos (Subsingleton.elim _ _)]; simp

/-- In a reciprocal lattice `2π ℤ^m` the zone is a cube. -/
theorem zone_cube {m : ℕ} {B : Fin m → Pt m} (hB : ∀ i a, B i a = if i = a then 2 * Real.pi else 0)
    (k : Pt m) : InFirstBZ B k ↔ ∀ a, |k a| ≤ Real.pi := by
  have hpi := Real.pi_pos
  have hcomb : ∀ c a, comb B c a = 2 * Real.pi * c a := by
    intro c a
    rw [comb, Finset.sum_eq_single a]
    · rw [hB, if_pos rfl]; ring
    · intro b _ hb; rw [hB, if_neg hb, mul_zero]
    · intro h; exact absurd (Finset.mem_univ a) h
  have hcmp : ∀ c : Fin m → ℤ, nnorm k ≤ ndist k (comb B c) ↔
      ∑ a, k a ^ 2 ≤ ∑ a, (k a - 2 * Real.pi * c a) ^ 2 := by
    intro c
    rw [nnorm, ndist, Real.sqrt_le_sqrt_iff (Finset.sum_nonneg fun a _ => sq_nonneg _)]
    simp only [hcomb]
  constructor
  · intro H a
    have key : ∀ e : ℤ, k a ^ 2 ≤ (k a - 2 * Real.pi * e) ^ 2 := by
      intro e
      have := (hcmp (Pi.single a e)).1 (H _)
      rw [← Finset.add_sum_erase _ _ (Finset.mem_univ a),
        ← Finset.add_sum_erase _ _ (Finset.mem_univ a)] at this
      have hs : ∑ x ∈ Finset.univ.erase a, (k x - 2 * Real.pi * ((Pi.single a e : Fin m → ℤ) x : ℝ)) ^ 2 =
          ∑ x ∈ Finset.univ.erase a, k x ^ 2 := Finset.sum_congr rfl fun b hb => by
        rw [Pi.single_eq_of_ne (Finset.ne_of_mem_erase hb)]; simp
      rw [hs, Pi.single_eq_same] at this
      linarith
    have k1 := key 1
    have k2 := key (-1)
    push_cast at k1 k2
    rw [abs_le]
    constructor <;> nlinarith
  · intro H c
    rw [hcmp]
    refine Finset.sum_le_sum fun a _ => ?_
    obtain ⟨h1, h2⟩ := abs_le.1 (H a)
    rcases lt_trichotomy (c a) 0 with hc | hc | hc
    · have : (c a : ℝ) ≤ -1 := by exact_mod_cast (by omega : c a ≤ -1)
      nlinarith [mul_nonneg (by linarith : (0 : ℝ) ≤ k a + Real.pi) (by linarith : (0 : ℝ) ≤ -1 - (c a : ℝ)),
        mul_nonneg hpi.le (by linarith : (0 : ℝ) ≤ -1 - (c a : ℝ)),
        mul_nonneg (mul_nonneg hpi.le hpi.le) (mul_self_nonneg ((c a : ℝ) + 1)),
        mul_nonneg (mul_nonneg hpi.le hpi.le) (by linarith : (0 : ℝ) ≤ -1 - (c a : ℝ)),
        mul_nonneg (mul_nonneg hpi.le (by linarith : (0 : ℝ) ≤ k a + Real.pi)) (by linarith : (0 : ℝ) ≤ -(c a : ℝ))]
    · rw [hc]; simp
    · have : (1 : ℝ) ≤ c a := by exact_mod_cast (by omega : 1 ≤ c a)
      nlinarith [mul_nonneg (mul_nonneg hpi.le (by linarith : (0 : ℝ) ≤ Real.pi - k a)) (by linarith : (0 : ℝ) ≤ (c a : ℝ)),
        mul_nonneg (mul_nonneg hpi.le hpi.le) (mul_nonneg (by linarith : (0 : ℝ) ≤ (c a : ℝ)) (by linarith : (0 : ℝ) ≤ (c a : ℝ) - 1))]

/-- **C67 (chain).** The first Brillouin zone is the interval from `-π` to `π`, and the listed points are
its two endpoints. -/
theorem C67_chain (k : Pt 1) :
    (InFirstBZ (bsCalculator chainCell.vectors) k ↔ |k 0| ≤ Real.pi) ∧
    (k ∈ chainEs ↔ |k 0| = Real.pi) := by
  have hpi := Real.pi_pos
  constructor
  · rw [zone_cube (fun i a => by rw [bs_chain, if_pos (Subsingleton.elim _ _)])]
    exact ⟨fun h => h 0, fun h a => by rw [Subsingleton.elim a 0]; exact h⟩
  · simp only [chainEs, List.map_cons, List.map_nil, List.mem_cons, List.not_mem_nil, or_false]
    rw [abs_eq hpi.le]
    have e : ∀ c : Fin 1 → ℤ, ∀ a, symPoint (bsCalculator chainCell.vectors) c 2 a = Real.pi * c 0 := by
      intro c a
      rw [symPoint, comb, Fin.sum_univ_one, bs_chain]; ring
    constructor
    · rintro (rfl | rfl)
      · right; rw [e]; simp
      · left; rw [e]; simp
    · rintro (h | h)
      · right; funext a; rw [e, Subsingleton.elim a 0, h]; simp
      · left; funext a; rw [e, Subsingleton.elim a 0, h]; simp

/-- How many coordinates of `k` are `π` or `-π`, the others being zero. -/
def CubePoint (j : ℕ) (k : Pt 3) : Prop :=
  (∀ a, k a = -Real.pi ∨ k a = 0 ∨ k a = Real.pi) ∧
    (Finset.univ.filter fun a => k a ≠ 0).card = j

/-- **C67 (cubic).** The first Brillouin zone is the cube from `-π` to `π`; the listed X-, M- and K-points
are exactly the centres of its faces, the middles of its edges and its corners. -/
theorem C67_cubic (k : Pt 3) :
    (InFirstBZ (bsCalculator cubicCell.vectors) k ↔ ∀ a, |k a| ≤ Real.pi) ∧
    (k ∈ cubicXs ↔ CubePoint 1 k) ∧ (k ∈ cubicMs ↔ CubePoint 2 k) ∧ (k ∈ cubicKs ↔ CubePoint 3 k) := by
  have hpi := Real.pi_pos
  have hne := hpi.ne'
  refine ⟨zone_cube bs_cubic k, ?_⟩
  have e : ∀ x y z : ℤ, symPoint (bsCalculator cubicCell.vectors) ![x, y, z] 2 =
      ![Real.pi * x, Real.pi * y, Real.pi * z] := by
    intro x y z
    funext a
    rw [symPoint, comb, Fin.sum_univ_three, bs_cubic, bs_cubic, bs_cubic]
    fin_cases a <;> simp <;> ring
  have hfwd : ∀ x y z : ℤ, (x = -1 ∨ x = 0 ∨ x = 1) → (y = -1 ∨ y = 0 ∨ y = 1) →
      (z = -1 ∨ z = 0 ∨ z = 1) → ∀ j,
      ((if x = 0 then 0 else 1) + (if y = 0 then 0 else 1) + (if z = 0 then 0 else 1) = j) →
      CubePoint j ![Real.pi * x, Real.pi * y, Real.pi * z] := by
    intro x y z hx hy hz j hj
    have aux : ∀ w : ℤ, (w = -1 ∨ w = 0 ∨ w = 1) → Real.pi * w = -Real.pi ∨ Real.pi * w = 0 ∨
        Real.pi * w = Real.pi := by
      rintro w (rfl | rfl | rfl) <;> simp
    refine ⟨fun a => ?_, ?_⟩
    · fin_cases a
      · exact aux x hx
      · exact aux y hy
      · exact aux z hz
    · rw [Finset.card_filter, Fin.sum_univ_three, ← hj]
      simp [hne]
  have hbwd : ∀ j, CubePoint j k → ∃ x y z : ℤ, (x = -1 ∨ x = 0 ∨ x = 1) ∧ (y = -1 ∨ y = 0 ∨ y = 1) ∧
      (z = -1 ∨ z = 0 ∨ z = 1) ∧
      ((if x = 0 then 0 else 1) + (if y = 0 then 0 else 1) + (if z = 0 then 0 else 1) = j) ∧
      k = ![Real.pi * x, Real.pi * y, Real.pi * z] := by
    rintro j ⟨h1, h2⟩
    have aux : ∀ a, ∃ w : ℤ, (w = -1 ∨ w = 0 ∨ w = 1) ∧ k a = Real.pi * w := by
      intro a
      rcases h1 a with h | h | h
      · exact ⟨-1, by simp, by rw [h]; simp⟩
      · exact ⟨0, by simp, by rw [h]; simp⟩
      · exact ⟨1, by simp, by rw [h]; simp⟩
    obtain ⟨x, hx, ex⟩ := aux 0
    obtain ⟨y, hy, ey⟩ := aux 1
    obtain ⟨z, hz, ez⟩ := aux 2
    have hk : k = ![Real.pi * x, Real.pi * y, Real.pi * z] := by
      funext a; fin_cases a
      · exact ex
      · exact ey
      · exact ez
    refine ⟨x, y, z, hx, hy, hz, ?_, hk⟩
    rw [← h2, Finset.card_filter, Fin.sum_univ_three, ex, ey, ez]
    simp [hne]
  refine ⟨?_, ?_, ?_⟩
  · constructor
    · simp only [cubicXs, List.map_cons, List.map_nil, List.mem_cons, List.not_mem_nil, or_false, e]
      rintro (rfl | rfl | rfl | rfl | rfl | rfl) <;>
        exact hfwd _ _ _ (by decide) (by decide) (by decide) _ (by decide)
    · intro h
      obtain ⟨x, y, z, hx, hy, hz, hj, hk⟩ := hbwd 1 h
      rw [hk, ← e, cubicXs]
      refine List.mem_map.2 ⟨![x, y, z], ?_, rfl⟩
      rcases hx with rfl | rfl | rfl <;> rcases hy with rfl | rfl | rfl <;>
        rcases hz with rfl | rfl | rfl <;>
        first
          | exact absurd hj (by decide)
          | decide
  · constructor
    · simp only [cubicMs, List.map_cons, List.map_nil, List.mem_cons, List.not_mem_nil, or_false, e]
      rintro (rfl | rfl | rfl | rfl | rfl | rfl | rfl | rfl | rfl | rfl | rfl | rfl) <;>
        exact hfwd _ _ _ (by decide) (by decide) (by decide) _ (by decide)
    · intro h
      obtain ⟨x, y, z, hx, hy, hz, hj, hk⟩ := hbwd 2 h
      rw [hk, ← e, cubicMs]
      refine List.mem_map.2 ⟨![x, y, z], ?_, rfl⟩
      rcases hx with rfl | rfl | rfl <;> rcases hy with rfl | rfl | rfl <;>
        rcases hz with rfl | rfl | rfl <;>
        first
          | exact absurd hj (by decide)
          | decide
  · constructor
    · simp only [cubicKs, List.map_cons, List.map_nil, List.mem_cons, List.not_mem_nil, or_false, e]
      rintro (rfl | rfl | rfl | rfl | rfl | rfl | rfl | rfl) <;>
        exact hfwd _ _ _ (by decide) (by decide) (by decide) _ (by decide)
    · intro h
      obtain ⟨x, y, z, hx, hy, hz, hj, hk⟩ := hbwd 3 h
      rw [hk, ← e, cubicKs]
      refine List.mem_map.2 ⟨![x, y, z], ?_, rfl⟩
      rcases hx with rfl | rfl | rfl <;> rcases hy with rfl | rfl | rfl <;>
        rcases hz with rfl | rfl | rfl <;>
        first
          | exact absurd hj (by decide)
          | decide

/-- Non-trivial members of both sides: a K-point of the triangular lattice is a corner. -/
example : IsCorner (bsCalculator triangleCell.vectors)
    (symPoint (bsCalculator triangleCell.vectors) ![2, 1] 3) :=
  (C67_database_2d.2.2.2.1 _).2.1 (by simp [hexKs, hexKs60])

/-- The reciprocal vectors of a generated lattice. -/
example : ∃ L, init 4 sqPoints sqVectors = .ok L ∧ L.bs = bsCalculator sqVectors := by
  obtain ⟨L, h⟩ := sq_accepted
  exact ⟨L, h, C67_bs h⟩

end Verif.LDB
