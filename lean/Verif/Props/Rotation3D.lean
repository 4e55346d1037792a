import Verif.Model.Rotation3D
import Verif.Spec.Rotation
import Mathlib.LinearAlgebra.Matrix.Determinant.Basic
import Mathlib.Tactic.LinearCombination
import Mathlib.Tactic.FieldSimp
import Mathlib.Tactic.NormNum
import Mathlib.Tactic.FinCases
/-!
# C43-C45: rotations in three dimensions
-/

namespace Verif

namespace Rot

open Matrix Spec Classical

theorem toRad_false (t : ℝ) : toRad false t = t := rfl
theorem toRad_true (t : ℝ) : toRad true t = t * Real.pi / 180 := rfl

theorem inversion_eq : INVERSION = -1 := by
  unfold INVERSION
  ext i j
  fin_cases i <;> fin_cases j <;> norm_num

theorem withInversion_eq (inv : Bool) (R : Mat3) :
    withInversion inv R = if inv then -R else R := by
  cases inv
  · rfl
  · simp [withInversion, inversion_eq]

/-- orthogonal with the given determinant -/
def OrthDet (R : Mat3) (d : ℝ) : Prop := R * Rᵀ = 1 ∧ Rᵀ * R = 1 ∧ R.det = d

theorem OrthDet.mul {A B : Mat3} {a b : ℝ} (hA : OrthDet A a) (hB : OrthDet B b) :
    OrthDet (A * B) (a * b) := by
  obtain ⟨a1, a2, a3⟩ := hA
  obtain ⟨b1, b2, b3⟩ := hB
  refine ⟨?_, ?_, by rw [det_mul, a3, b3]⟩
  · rw [transpose_mul]
    calc A * B * (Bᵀ * Aᵀ) = A * (B * Bᵀ) * Aᵀ := by simp only [Matrix.mul_assoc]
      _ = 1 := by rw [b1, Matrix.mul_one, a1]
  · rw [transpose_mul]
    calc Bᵀ * Aᵀ * (A * B) = Bᵀ * (Aᵀ * A) * B := by simp only [Matrix.mul_assoc]
      _ = 1 := by rw [a2, Matrix.mul_one, b2]

theorem OrthDet.transpose {A : Mat3} {a : ℝ} (hA : OrthDet A a) : OrthDet Aᵀ a := by
  obtain ⟨a1, a2, a3⟩ := hA
  exact ⟨by rw [transpose_transpose, a2], by rw [transpose_transpose, a1], by rw [det_transpose, a3]⟩

theorem OrthDet.inv {R : Mat3} (h : OrthDet R 1) (inv : Bool) :
    OrthDet (withInversion inv R) (if inv then -1 else 1) := by
  rw [withInversion_eq]
  obtain ⟨a1, a2, a3⟩ := h
  cases inv
  · exact ⟨a1, a2, a3⟩
  · refine ⟨by simp [a1], by simp [a2], ?_⟩
    simp only [if_true]
    rw [det_neg, a3]
    norm_num [Fintype.card_fin]

theorem of_entries {R : Mat3} {d : ℝ} (h1 : R * Rᵀ = 1) (hd : R.det = d) : OrthDet R d :=
  ⟨h1, mul_eq_one_comm.mp h1, hd⟩

theorem orth_rx {s c : ℝ} (h : c ^ 2 + s ^ 2 = 1) :
    OrthDet !![1, 0, 0; 0, c, -s; 0, s, c] 1 := by
  apply of_entries
  · ext i j
    fin_cases i <;> fin_cases j <;> simp [Matrix.mul_apply, Fin.sum_univ_three] <;>
      first | ring1 | linear_combination h
  · simp [Matrix.det_fin_three]
    first | ring1 | linear_combination h

theorem orth_ry {s c : ℝ} (h : c ^ 2 + s ^ 2 = 1) :
    OrthDet !![c, 0, s; 0, 1, 0; -s, 0, c] 1 := by
  apply of_entries
  · ext i j
    fin_cases i <;> fin_cases j <;> simp [Matrix.mul_apply, Fin.sum_univ_three] <;>
      first | ring1 | linear_combination h
  · simp [Matrix.det_fin_three]
    first | ring1 | linear_combination h

theorem orth_rz {s c : ℝ} (h : c ^ 2 + s ^ 2 = 1) :
    OrthDet !![c, -s, 0; s, c, 0; 0, 0, 1] 1 := by
  apply of_entries
  · ext i j
    fin_cases i <;> fin_cases j <;> simp [Matrix.mul_apply, Fin.sum_univ_three] <;>
      first | ring1 | linear_combination h
  · simp [Matrix.det_fin_three]
    first | ring1 | linear_combination h

theorem orth_general {sA cA sB cB sT cT : ℝ} (hA : cA ^ 2 + sA ^ 2 = 1) (hB : cB ^ 2 + sB ^ 2 = 1)
    (hT : cT ^ 2 + sT ^ 2 = 1) : OrthDet (generalMatrix sA cA sB cB sT cT) 1 := by
  have := ((((orth_rz hA).mul (orth_ry hB)).mul (orth_rz hT)).mul (orth_ry hB).transpose).mul
    (orth_rz hA).transpose
  simpa [generalMatrix] using this

/-- **C43** (X, Y, Z, Euler).  For all angles and flags the matrices are orthogonal with determinant
`1`, or `-1` with inversion. -/
theorem C43_orthogonal (a b c : ℝ) (deg inv : Bool) :
    let d : ℝ := if inv then -1 else 1
    OrthDet (rotationX a deg inv) d ∧ OrthDet (rotationY a deg inv) d ∧
    OrthDet (rotationZ a deg inv) d ∧ OrthDet (rotationEuler a b c deg inv) d := by
  refine ⟨?_, ?_, ?_, ?_⟩
  · exact (orth_rx (Real.cos_sq_add_sin_sq _)).inv inv
  · exact (orth_ry (Real.cos_sq_add_sin_sq _)).inv inv
  · exact (orth_rz (Real.cos_sq_add_sin_sq _)).inv inv
  · have h := ((orth_rz (Real.cos_sq_add_sin_sq (toRad deg a))).mul
      (orth_ry (Real.cos_sq_add_sin_sq (toRad deg b)))).mul
      (orth_rz (Real.cos_sq_add_sin_sq (toRad deg c)))
    rw [mul_one, mul_one] at h
    exact h.inv inv

theorem no_nan {x y z thr : ℝ} (h0 : 0 < thr) (hdr : ¬ √(x ^ 2 + y ^ 2 + z ^ 2) < thr) :
    ¬ ((¬ √(x ^ 2 + y ^ 2) < thr ∧ √(x ^ 2 + y ^ 2) = 0) ∨ √(x ^ 2 + y ^ 2 + z ^ 2) = 0) := by
  rintro (⟨h1, h2⟩ | h2)
  · rw [h2] at h1; exact h1 h0
  · rw [h2] at hdr; exact hdr h0

theorem sq_norms {x y z : ℝ} (hdr : √(x ^ 2 + y ^ 2 + z ^ 2) ≠ 0) :
    0 < √(x ^ 2 + y ^ 2 + z ^ 2) ∧
    (z / √(x ^ 2 + y ^ 2 + z ^ 2)) ^ 2 + (√(x ^ 2 + y ^ 2) / √(x ^ 2 + y ^ 2 + z ^ 2)) ^ 2 = 1 := by
  have hpos : 0 < √(x ^ 2 + y ^ 2 + z ^ 2) := lt_of_le_of_ne (Real.sqrt_nonneg _) hdr.symm
  refine ⟨hpos, ?_⟩
  rw [div_pow, div_pow, ← add_div, div_eq_one_iff_eq (by positivity), Real.sq_sqrt (by positivity),
    Real.sq_sqrt (by positivity)]
  ring

theorem unit_alpha {x y thr : ℝ} (h0 : ¬ (¬ √(x ^ 2 + y ^ 2) < thr ∧ √(x ^ 2 + y ^ 2) = 0)) :
    (if √(x ^ 2 + y ^ 2) < thr then 1 else x / √(x ^ 2 + y ^ 2)) ^ 2 +
      (if √(x ^ 2 + y ^ 2) < thr then 0 else y / √(x ^ 2 + y ^ 2)) ^ 2 = 1 := by
  split_ifs with h
  · norm_num
  · have hpos : 0 < √(x ^ 2 + y ^ 2) := lt_of_le_of_ne (Real.sqrt_nonneg _) (fun h' => h0 ⟨h, h'.symm⟩)
    rw [div_pow, div_pow, ← add_div, div_eq_one_iff_eq (by positivity), Real.sq_sqrt (by positivity)]

/-- **C43** (threshold).  Whatever calls of `set_threshold` were made, the threshold is non-negative: it is the last
non-negative argument, `1e-10` if there was none; exactly the negative arguments are refused, with
AssertionError. -/
theorem C43_threshold (calls : List ℝ) :
    0 ≤ thresholdAfter calls ∧
    (thresholdAfter calls = ((calls.filter (fun x => decide (0 ≤ x))).getLast?).getD (1 / 10 ^ 10)) ∧
    ∀ x, (0 ≤ x → setThreshold x = .ok x) ∧ (x < 0 → setThreshold x = .error .assertionError) := by
  have hset : ∀ x, (0 ≤ x → setThreshold x = .ok x) ∧ (x < 0 → setThreshold x = .error .assertionError) := by
    intro x
    constructor
    · intro hx; simp [setThreshold, pyAssert, hx, bind, Except.bind, pure, Except.pure]
    · intro hx; simp [setThreshold, pyAssert, not_le.mpr hx, bind, Except.bind]
  have key : thresholdAfter calls = ((calls.filter (fun x => decide (0 ≤ x))).getLast?).getD (1 / 10 ^ 10) := by
    induction calls using List.reverseRecOn with
    | nil => rfl
    | append_singleton l x ih =>
      unfold thresholdAfter at ih ⊢
      rw [List.foldl_append, List.filter_append]
      simp only [List.foldl_cons, List.foldl_nil]
      by_cases hx : 0 ≤ x
      · rw [(hset x).1 hx]; simp [hx]
      · rw [(hset x).2 (not_le.mp hx)]; simp [hx, ih]
  refine ⟨?_, key, hset⟩
  rw [key]
  cases h : (calls.filter (fun x => decide (0 ≤ x))).getLast? with
  | none => norm_num
  | some x =>
    have := List.mem_of_getLast? h
    simp only [List.mem_filter, decide_eq_true_eq] at this
    exact this.2

/-- **C43** (general axis).  Whenever `RotationGeneral` returns a matrix (for every threshold that can be set), it
is orthogonal with determinant `1`, or `-1` with inversion; it returns for every two-angle axis
and for every three-component axis whose length is not below the threshold, raises ValueError for a
shorter one and for a wrong number of components, AssertionError for an axis that is no sequence.  Only
with the threshold 0 and an axis along z (or null) does it divide by zero and produce no matrix. -/
theorem C43_general (axis : Option (List ℝ)) (theta : ℝ) (deg inv : Bool) (thr : ℝ) (h0 : 0 ≤ thr) :
    (∀ R, rotationGeneral axis theta deg inv thr = .ok R → OrthDet R (if inv then -1 else 1)) ∧
    (axis = none → rotationGeneral axis theta deg inv thr = .error .assertionError) ∧
    (∀ l, axis = some l → l.length ≠ 2 → l.length ≠ 3 →
      rotationGeneral axis theta deg inv thr = .error .valueError) ∧
    (∀ a b, axis = some [a, b] → ∃ R, rotationGeneral axis theta deg inv thr = .ok R) ∧
    (∀ x y z, axis = some [x, y, z] → √(x ^ 2 + y ^ 2 + z ^ 2) < thr →
      rotationGeneral axis theta deg inv thr = .error .valueError) ∧
    (∀ x y z, axis = some [x, y, z] → thr ≤ √(x ^ 2 + y ^ 2 + z ^ 2) → ¬ (thr = 0 ∧ x = 0 ∧ y = 0) →
      ∃ R, rotationGeneral axis theta deg inv thr = .ok R) ∧
    (∀ z, axis = some [0, 0, z] → thr = 0 →
      rotationGeneral axis theta deg inv thr = .error .zeroDivisionError) := by
  refine ⟨?_, ?_, ?_, ?_, ?_, ?_, ?_⟩
  · intro R hR
    match axis with
    | none => cases hR
    | some [] => cases hR
    | some [_] => cases hR
    | some [a, b] =>
      cases hR
      exact (orth_general (Real.cos_sq_add_sin_sq _) (Real.cos_sq_add_sin_sq _)
        (Real.cos_sq_add_sin_sq _)).inv inv
    | some [x, y, z] =>
      simp only [rotationGeneral] at hR
      by_cases h : √(x ^ 2 + y ^ 2 + z ^ 2) < thr
      · rw [if_pos h] at hR
        cases hR
      · rw [if_neg h] at hR
        by_cases h' : (¬ √(x ^ 2 + y ^ 2) < thr ∧ √(x ^ 2 + y ^ 2) = 0) ∨ √(x ^ 2 + y ^ 2 + z ^ 2) = 0
        · rw [if_pos h'] at hR
          cases hR
        rw [if_neg h'] at hR
        rw [← Except.ok.inj hR]
        apply OrthDet.inv
        apply orth_general
        · exact unit_alpha (fun h'' => h' (.inl h''))
        · exact (sq_norms (fun h'' => h' (.inr h''))).2
        · exact Real.cos_sq_add_sin_sq _
    | some (_ :: _ :: _ :: _ :: _) => cases hR
  · rintro rfl
    rfl
  · rintro l rfl h2 h3
    match l with
    | [] => rfl
    | [_] => rfl
    | [_, _] => exact absurd rfl h2
    | [_, _, _] => exact absurd rfl h3
    | _ :: _ :: _ :: _ :: _ => rfl
  · rintro a b rfl
    exact ⟨_, rfl⟩
  · rintro x y z rfl h
    simp only [rotationGeneral]
    rw [if_pos h]
  · rintro x y z rfl h hn
    simp only [rotationGeneral]
    rw [if_neg (not_lt.mpr h), if_neg]
    · exact ⟨_, rfl⟩
    · have hxy : √(x ^ 2 + y ^ 2) = 0 → x = 0 ∧ y = 0 := by
        intro h'
        rw [Real.sqrt_eq_zero (by positivity)] at h'
        constructor <;> nlinarith [sq_nonneg x, sq_nonneg y]
      have hle : √(x ^ 2 + y ^ 2) ≤ √(x ^ 2 + y ^ 2 + z ^ 2) :=
        Real.sqrt_le_sqrt (by nlinarith [sq_nonneg z])
      have hnn := Real.sqrt_nonneg (x ^ 2 + y ^ 2)
      rintro (⟨h1, h2⟩ | h2)
      · exact hn ⟨by linarith [not_lt.mp h1], hxy h2⟩
      · exact hn ⟨by linarith, hxy (by linarith)⟩
  · rintro z rfl rfl
    simp only [rotationGeneral]
    rw [if_neg (not_lt.mpr (Real.sqrt_nonneg _)), if_pos]
    left
    simp

/-- Non-vacuity of C43: the rotation about (1, 1, 1) exists. -/
example : ∃ R, rotationGeneral (some [1, 1, 1]) 1 = .ok R := by
  refine (C43_general (some [1, 1, 1]) 1 false false viewAsZero (by norm_num [viewAsZero])).2.2.2.2.2.1
    1 1 1 rfl ?_ (by norm_num)
  rw [Real.le_sqrt' (by norm_num [viewAsZero])]
  norm_num [viewAsZero]

/-! ### C44 -/

theorem transpose_three (a b c d e f g h i : ℝ) :
    (!![a, b, c; d, e, f; g, h, i] : Mat3)ᵀ = !![a, d, g; b, e, h; c, f, i] := by
  ext i j
  fin_cases i <;> fin_cases j <;> rfl

theorem generalMatrix_rodrigues {sA cA sB cB t : ℝ} (hA : cA ^ 2 + sA ^ 2 = 1)
    (hB : cB ^ 2 + sB ^ 2 = 1) :
    generalMatrix sA cA sB cB (Real.sin t) (Real.cos t) = rodrigues (sB * cA) (sB * sA) cB t := by
  unfold generalMatrix rodrigues
  simp only [transpose_three, mul_fin_three]
  generalize Real.sin t = S, Real.cos t = C
  ext i j
  fin_cases i <;> fin_cases j <;> simp
  · linear_combination (C * cA ^ 2) * hB + C * hA
  · linear_combination (C * cA * sA) * hB + (-S * cB) * hA
  · linear_combination (0 : ℝ) * hB
  · linear_combination (C * cA * sA) * hB + (S * cB) * hA
  · linear_combination (C * sA ^ 2) * hB + C * hA
  · linear_combination (0 : ℝ) * hB
  · linear_combination (0 : ℝ) * hB
  · linear_combination (0 : ℝ) * hB
  · linear_combination C * hB


/-- The direction cosines are not blurred by the threshold: the axis is exactly along z or its
projection on the xy plane is not shorter than the threshold. -/
def AxisOk (thr x y : ℝ) : Prop := (x = 0 ∧ y = 0) ∨ thr ≤ √(x ^ 2 + y ^ 2)

/-- **C44** (Cartesian axis).  For a three-component axis `n` outside the threshold gap,
`RotationGeneral` is the rotation about the unit vector `n / |n|` (Rodrigues' formula), times the
inversion if requested. -/
theorem C44_cartesian (x y z theta thr : ℝ) (deg inv : Bool) (h0 : 0 < thr)
    (hr : thr ≤ √(x ^ 2 + y ^ 2 + z ^ 2)) (hxy : AxisOk thr x y) :
    let r := √(x ^ 2 + y ^ 2 + z ^ 2)
    let t := if deg then theta * Real.pi / 180 else theta
    rotationGeneral (some [x, y, z]) theta deg inv thr =
      .ok (if inv then -rodrigues (x / r) (y / r) (z / r) t
        else rodrigues (x / r) (y / r) (z / r) t) := by
  intro r t
  simp only [rotationGeneral]
  have hnan := no_nan h0 (not_lt.mpr hr)
  rw [if_neg (not_lt.mpr hr), if_neg hnan]
  congr 1
  have hB := (sq_norms (fun h => hnan (.inr h))).2
  have hpos := (sq_norms (fun h => hnan (.inr h))).1
  rw [generalMatrix_rodrigues (unit_alpha (fun h => hnan (.inl h))) hB, withInversion_eq]
  have hx : √(x ^ 2 + y ^ 2) / √(x ^ 2 + y ^ 2 + z ^ 2) *
      (if √(x ^ 2 + y ^ 2) < thr then 1 else x / √(x ^ 2 + y ^ 2)) = x / r := by
    rcases hxy with ⟨rfl, rfl⟩ | h
    · simp
    · rw [if_neg (not_lt.mpr h)]
      have : √(x ^ 2 + y ^ 2) ≠ 0 := (lt_of_lt_of_le h0 h).ne'
      show _ = _ / √(x ^ 2 + y ^ 2 + z ^ 2)
      field_simp
  have hy : √(x ^ 2 + y ^ 2) / √(x ^ 2 + y ^ 2 + z ^ 2) *
      (if √(x ^ 2 + y ^ 2) < thr then 0 else y / √(x ^ 2 + y ^ 2)) = y / r := by
    rcases hxy with ⟨rfl, rfl⟩ | h
    · simp
    · rw [if_neg (not_lt.mpr h)]
      have : √(x ^ 2 + y ^ 2) ≠ 0 := (lt_of_lt_of_le h0 h).ne'
      show _ = _ / √(x ^ 2 + y ^ 2 + z ^ 2)
      field_simp
  rw [hx, hy]
  rfl

/-- **C44** (spherical axis).  With two angles `(alpha, beta)` the axis is
`(sin beta cos alpha, sin beta sin alpha, cos beta)`. -/
theorem C44_spherical (alpha beta theta thr : ℝ) (deg inv : Bool) :
    let u := fun a : ℝ => if deg then a * Real.pi / 180 else a
    let R := rodrigues (Real.sin (u beta) * Real.cos (u alpha))
      (Real.sin (u beta) * Real.sin (u alpha)) (Real.cos (u beta)) (u theta)
    rotationGeneral (some [alpha, beta]) theta deg inv thr = .ok (if inv then -R else R) := by
  intro u R
  simp only [rotationGeneral]
  congr 1
  rw [generalMatrix_rodrigues (Real.cos_sq_add_sin_sq _) (Real.cos_sq_add_sin_sq _), withInversion_eq]
  rfl

/-- **C44** (axis fixed).  Outside the threshold gap the rotation leaves the axis invariant (reverses
it with inversion). -/
theorem C44_axis_fixed (x y z theta thr : ℝ) (deg inv : Bool) (h0 : 0 < thr)
    (hr : thr ≤ √(x ^ 2 + y ^ 2 + z ^ 2)) (hxy : AxisOk thr x y) :
    ∃ R, rotationGeneral (some [x, y, z]) theta deg inv thr = .ok R ∧
      R *ᵥ ![x, y, z] = if inv then -![x, y, z] else ![x, y, z] := by
  refine ⟨_, C44_cartesian x y z theta thr deg inv h0 hr hxy, ?_⟩
  have hpos : 0 < √(x ^ 2 + y ^ 2 + z ^ 2) := lt_of_lt_of_le h0 hr
  have hsq : √(x ^ 2 + y ^ 2 + z ^ 2) ^ 2 = x ^ 2 + y ^ 2 + z ^ 2 := Real.sq_sqrt (by positivity)
  generalize (if deg then theta * Real.pi / 180 else theta) = t
  generalize √(x ^ 2 + y ^ 2 + z ^ 2) = r at *
  have key : rodrigues (x / r) (y / r) (z / r) t *ᵥ ![x, y, z] = ![x, y, z] := by
    unfold rodrigues
    have hr0 := hpos.ne'
    generalize Real.sin t = S, Real.cos t = C
    ext i
    fin_cases i <;> simp [Matrix.mulVec, dotProduct, Fin.sum_univ_three] <;> field_simp
    · linear_combination (C - 1) * x * hsq
    · linear_combination (C - 1) * y * hsq
    · linear_combination (C - 1) * z * hsq
  cases inv
  · simpa using key
  · simp only [if_true]
    rw [Matrix.neg_mulVec, key]

/-- **C44** (length).  Scaling the axis by a positive factor does not change the rotation (both axes
outside the threshold gap). -/
theorem C44_length_irrelevant (x y z k theta thr : ℝ) (deg inv : Bool) (h0 : 0 < thr) (hk : 0 < k)
    (hr : thr ≤ √(x ^ 2 + y ^ 2 + z ^ 2)) (hxy : AxisOk thr x y)
    (hr' : thr ≤ √((k * x) ^ 2 + (k * y) ^ 2 + (k * z) ^ 2)) (hxy' : AxisOk thr (k * x) (k * y)) :
    rotationGeneral (some [k * x, k * y, k * z]) theta deg inv thr =
      rotationGeneral (some [x, y, z]) theta deg inv thr := by
  rw [C44_cartesian x y z theta thr deg inv h0 hr hxy, C44_cartesian _ _ _ theta thr deg inv h0 hr' hxy']
  have : √((k * x) ^ 2 + (k * y) ^ 2 + (k * z) ^ 2) = k * √(x ^ 2 + y ^ 2 + z ^ 2) := by
    rw [show (k * x) ^ 2 + (k * y) ^ 2 + (k * z) ^ 2 = k ^ 2 * (x ^ 2 + y ^ 2 + z ^ 2) by ring,
      Real.sqrt_mul (by positivity), Real.sqrt_sq hk.le]
  simp only [this, mul_div_mul_left _ _ hk.ne']

/-- **C44** (the two ways of giving an axis agree).  The Cartesian components of the direction
`(alpha, beta)`, of any length `r > 0`, give the same rotation as the two angles. -/
theorem C44_forms_agree (alpha beta r theta thr : ℝ) (deg inv : Bool) (h0 : 0 < thr) (hr : thr ≤ r) :
    let u := fun a : ℝ => if deg then a * Real.pi / 180 else a
    AxisOk thr (r * Real.sin (u beta) * Real.cos (u alpha)) (r * Real.sin (u beta) * Real.sin (u alpha)) →
    rotationGeneral (some [r * Real.sin (u beta) * Real.cos (u alpha),
      r * Real.sin (u beta) * Real.sin (u alpha), r * Real.cos (u beta)]) theta deg inv thr =
      rotationGeneral (some [alpha, beta]) theta deg inv thr := by
  intro u hxy
  have hr0 : 0 < r := lt_of_lt_of_le h0 hr
  have h2 := C44_spherical alpha beta theta thr deg inv
  have key : ∀ B A : ℝ, AxisOk thr (r * Real.sin B * Real.cos A) (r * Real.sin B * Real.sin A) →
      rotationGeneral (some [r * Real.sin B * Real.cos A, r * Real.sin B * Real.sin A, r * Real.cos B]) theta deg inv thr =
      .ok (if inv then -rodrigues (Real.sin B * Real.cos A) (Real.sin B * Real.sin A) (Real.cos B) (u theta)
        else rodrigues (Real.sin B * Real.cos A) (Real.sin B * Real.sin A) (Real.cos B) (u theta)) := by
    intro beta alpha hxy
    have hn : √((r * Real.sin beta * Real.cos alpha) ^ 2 + (r * Real.sin beta * Real.sin alpha) ^ 2 +
        (r * Real.cos beta) ^ 2) = r := by
      rw [show (r * Real.sin beta * Real.cos alpha) ^ 2 + (r * Real.sin beta * Real.sin alpha) ^ 2 +
        (r * Real.cos beta) ^ 2 = r ^ 2 by
          linear_combination (r ^ 2 * Real.sin beta ^ 2) * Real.cos_sq_add_sin_sq alpha +
            r ^ 2 * Real.cos_sq_add_sin_sq beta]
      exact Real.sqrt_sq hr0.le
    have h := C44_cartesian _ _ (r * Real.cos beta) theta thr deg inv h0 (by rw [hn]; exact hr) hxy
    simp only [hn] at h
    rw [h]
    have e1 : r * Real.sin beta * Real.cos alpha / r = Real.sin beta * Real.cos alpha := by
      field_simp
    have e2 : r * Real.sin beta * Real.sin alpha / r = Real.sin beta * Real.sin alpha := by
      field_simp
    have e3 : r * Real.cos beta / r = Real.cos beta := by field_simp
    rw [e1, e2, e3]
  rw [key _ _ hxy, h2]

/-- **C44** (coordinate axes).  About the coordinate axes `RotationGeneral` is `RotationX`, `RotationY`
and `RotationZ` (default threshold). -/
theorem C44_coordinate_axes (theta : ℝ) (deg inv : Bool) :
    rotationGeneral (some [1, 0, 0]) theta deg inv = .ok (rotationX theta deg inv) ∧
    rotationGeneral (some [0, 1, 0]) theta deg inv = .ok (rotationY theta deg inv) ∧
    rotationGeneral (some [0, 0, 1]) theta deg inv = .ok (rotationZ theta deg inv) := by
  have h0 : 0 < viewAsZero := by norm_num [viewAsZero]
  have h1 : viewAsZero ≤ 1 := by norm_num [viewAsZero]
  refine ⟨?_, ?_, ?_⟩
  · rw [C44_cartesian 1 0 0 theta _ deg inv h0 (by simpa using h1) (.inr (by simpa using h1))]
    unfold rotationX
    rw [withInversion_eq]
    have : rodrigues 1 0 0 (toRad deg theta) = !![1, 0, 0; 0, Real.cos (toRad deg theta),
        -Real.sin (toRad deg theta); 0, Real.sin (toRad deg theta), Real.cos (toRad deg theta)] := by
      unfold rodrigues
      ext i j
      fin_cases i <;> fin_cases j <;> simp
    simp only [← this]
    simp [toRad]
  · rw [C44_cartesian 0 1 0 theta _ deg inv h0 (by simpa using h1) (.inr (by simpa using h1))]
    unfold rotationY
    rw [withInversion_eq]
    have : rodrigues 0 1 0 (toRad deg theta) = !![Real.cos (toRad deg theta), 0,
        Real.sin (toRad deg theta); 0, 1, 0; -Real.sin (toRad deg theta), 0,
        Real.cos (toRad deg theta)] := by
      unfold rodrigues
      ext i j
      fin_cases i <;> fin_cases j <;> simp
    simp only [← this]
    simp [toRad]
  · rw [C44_cartesian 0 0 1 theta _ deg inv h0 (by simpa using h1) (.inl ⟨rfl, rfl⟩)]
    unfold rotationZ
    rw [withInversion_eq]
    have : rodrigues 0 0 1 (toRad deg theta) = !![Real.cos (toRad deg theta),
        -Real.sin (toRad deg theta), 0; Real.sin (toRad deg theta), Real.cos (toRad deg theta), 0;
        0, 0, 1] := by
      unfold rodrigues
      ext i j
      fin_cases i <;> fin_cases j <;> simp
    simp only [← this]
    simp [toRad]

/-- **C44** (the gap).  Inside the threshold gap the axis is not preserved: for the accepted axis
`(0, 0.9e-10, 0.9e-10)` and the angle pi, the axis is mapped to a vector with a nonzero x component. -/
theorem C44_threshold_gap : ∃ R,
    rotationGeneral (some [0, 9 / 10 ^ 11, 9 / 10 ^ 11]) Real.pi = .ok R ∧
    R *ᵥ ![0, 9 / 10 ^ 11, 9 / 10 ^ 11] ≠ ![0, 9 / 10 ^ 11, 9 / 10 ^ 11] := by
  have hdxy : √((0 : ℝ) ^ 2 + (9 / 10 ^ 11) ^ 2) = 9 / 10 ^ 11 := by
    rw [zero_pow (by norm_num), zero_add, Real.sqrt_sq (by norm_num)]
  have hdr : √((0 : ℝ) ^ 2 + (9 / 10 ^ 11) ^ 2 + (9 / 10 ^ 11) ^ 2) = 9 / 10 ^ 11 * √2 := by
    rw [show (0 : ℝ) ^ 2 + (9 / 10 ^ 11) ^ 2 + (9 / 10 ^ 11) ^ 2 = (9 / 10 ^ 11) ^ 2 * 2 by norm_num,
      Real.sqrt_mul (by positivity), Real.sqrt_sq (by norm_num)]
  have hs2 : √2 ^ 2 = (2 : ℝ) := Real.sq_sqrt (by norm_num)
  have hs2pos : (0 : ℝ) < √2 := Real.sqrt_pos.mpr (by norm_num)
  have hbig : ¬ √((0 : ℝ) ^ 2 + (9 / 10 ^ 11) ^ 2 + (9 / 10 ^ 11) ^ 2) < viewAsZero := by
    rw [hdr, not_lt]
    unfold viewAsZero
    have : (10 : ℝ) / 9 ≤ √2 := by
      rw [Real.le_sqrt' (by norm_num)]
      norm_num
    linarith
  have hsmall : (9 : ℝ) / 10 ^ 11 < viewAsZero := by norm_num [viewAsZero]
  refine ⟨rodrigues (1 / √2) 0 (1 / √2) Real.pi, ?_, ?_⟩
  · simp only [rotationGeneral]
    rw [if_neg hbig, if_neg (no_nan (by norm_num [viewAsZero]) hbig), hdxy, hdr, if_pos hsmall, if_pos hsmall]
    congr 1
    have e : (9 : ℝ) / 10 ^ 11 / (9 / 10 ^ 11 * √2) = 1 / √2 := by field_simp
    rw [e]
    have := generalMatrix_rodrigues (sA := 0) (cA := 1) (sB := 1 / √2) (cB := 1 / √2) (t := Real.pi)
      (by norm_num) (by rw [div_pow, hs2]; norm_num)
    simp only [toRad_false]
    rw [this]
    simp [withInversion]
  · intro h
    have h0 := congrFun h 0
    simp [rodrigues, Matrix.mulVec, dotProduct, Fin.sum_univ_three] at h0

/-- Non-vacuity of C44: the axis (1, 1, 1) with the default threshold. -/
example : viewAsZero ≤ √((1 : ℝ) ^ 2 + 1 ^ 2 + 1 ^ 2) ∧ AxisOk viewAsZero 1 1 := by
  refine ⟨?_, .inr ?_⟩ <;>
  · rw [Real.le_sqrt' (by norm_num [viewAsZero])]
    norm_num [viewAsZero]

/-! ### C45 -/

theorem toRad_add (deg : Bool) (a b : ℝ) : toRad deg (a + b) = toRad deg a + toRad deg b := by
  cases deg
  · rfl
  · simp only [toRad, if_true]
    ring

theorem withInversion_mul (i j : Bool) (A B : Mat3) :
    withInversion i A * withInversion j B = withInversion (i != j) (A * B) := by
  simp only [withInversion_eq]
  cases i <;> cases j <;> simp

/-- **C45** (composition).  Rotations about a fixed axis add their angles, and inversions cancel in
pairs. -/
theorem C45_composition (a b : ℝ) (deg i j : Bool) :
    rotationX a deg i * rotationX b deg j = rotationX (a + b) deg (i != j) ∧
    rotationY a deg i * rotationY b deg j = rotationY (a + b) deg (i != j) ∧
    rotationZ a deg i * rotationZ b deg j = rotationZ (a + b) deg (i != j) := by
  unfold rotationX rotationY rotationZ
  simp only [withInversion_mul, toRad_add, mul_fin_three, Real.cos_add, Real.sin_add]
  refine ⟨?_, ?_, ?_⟩ <;>
  · congr 1
    ext r c
    fin_cases r <;> fin_cases c <;> simp <;> ring

theorem generalMatrix_mul {sA cA sB cB : ℝ} (hA : cA ^ 2 + sA ^ 2 = 1) (hB : cB ^ 2 + sB ^ 2 = 1)
    (s c s' c' : ℝ) : generalMatrix sA cA sB cB s c * generalMatrix sA cA sB cB s' c' =
      generalMatrix sA cA sB cB (s * c' + c * s') (c * c' - s * s') := by
  have hq := ((orth_rz hA).mul (orth_ry hB)).2.1
  have e : ∀ (Q Z Z' : Mat3), Qᵀ * Q = 1 → Q * Z * Qᵀ * (Q * Z' * Qᵀ) = Q * (Z * Z') * Qᵀ := by
    intro Q Z Z' h
    calc Q * Z * Qᵀ * (Q * Z' * Qᵀ) = Q * Z * (Qᵀ * Q) * Z' * Qᵀ := by simp only [Matrix.mul_assoc]
      _ = Q * (Z * Z') * Qᵀ := by rw [h]; simp only [Matrix.mul_assoc, Matrix.one_mul]
  have form : ∀ u v : ℝ, generalMatrix sA cA sB cB u v =
      (!![cA, -sA, 0; sA, cA, 0; 0, 0, 1] * !![cB, 0, sB; 0, 1, 0; -sB, 0, cB]) *
        !![v, -u, 0; u, v, 0; 0, 0, 1] *
      (!![cA, -sA, 0; sA, cA, 0; 0, 0, 1] * !![cB, 0, sB; 0, 1, 0; -sB, 0, cB])ᵀ := by
    intro u v
    rw [transpose_mul]
    simp only [generalMatrix, Matrix.mul_assoc]
  rw [form s c, form s' c', form, e _ _ _ hq]
  congr 2
  rw [mul_fin_three]
  ext r c
  fin_cases r <;> fin_cases c <;> simp <;> ring

/-- **C45** (composition about a general axis).  For any accepted axis, in either form. -/
theorem C45_general_composition (axis : Option (List ℝ)) (a b thr : ℝ) (deg i j : Bool)
    (A B : Mat3) (hA : rotationGeneral axis a deg i thr = .ok A)
    (hB : rotationGeneral axis b deg j thr = .ok B) :
    rotationGeneral axis (a + b) deg (i != j) thr = .ok (A * B) := by
  have hadd : toRad deg (a + b) = toRad deg a + toRad deg b := by
    cases deg
    · rfl
    · simp only [toRad, if_true]; ring
  match axis with
  | none => cases hA
  | some [] => cases hA
  | some [_] => cases hA
  | some [al, be] =>
    simp only [rotationGeneral, hadd] at hA hB ⊢
    rw [← Except.ok.inj hA, ← Except.ok.inj hB, withInversion_mul,
      generalMatrix_mul (Real.cos_sq_add_sin_sq _) (Real.cos_sq_add_sin_sq _), Real.cos_add,
      Real.sin_add]
  | some [x, y, z] =>
    simp only [rotationGeneral, hadd] at hA hB ⊢
    by_cases h : √(x ^ 2 + y ^ 2 + z ^ 2) < thr
    · rw [if_pos h] at hA
      cases hA
    · rw [if_neg h] at hA hB ⊢
      by_cases h' : (¬ √(x ^ 2 + y ^ 2) < thr ∧ √(x ^ 2 + y ^ 2) = 0) ∨ √(x ^ 2 + y ^ 2 + z ^ 2) = 0
      · rw [if_pos h'] at hA
        cases hA
      rw [if_neg h'] at hA hB ⊢
      rw [← Except.ok.inj hA, ← Except.ok.inj hB, withInversion_mul,
        generalMatrix_mul (unit_alpha (fun h'' => h' (.inl h''))) (sq_norms (fun h'' => h' (.inr h''))).2,
        Real.cos_add, Real.sin_add]
  | some (_ :: _ :: _ :: _ :: _) => cases hA

/-- **C45** (Euler).  `RotationEuler(a, b, c) = RotationZ(a) RotationY(b) RotationZ(c)`. -/
theorem C45_euler (a b c : ℝ) (deg : Bool) :
    rotationEuler a b c deg = rotationZ a deg * rotationY b deg * rotationZ c deg ∧
    rotationEuler a b c deg true = -(rotationZ a deg * rotationY b deg * rotationZ c deg) := by
  constructor
  · simp [rotationEuler, rotationZ, rotationY, withInversion]
  · simp [rotationEuler, rotationZ, rotationY, withInversion_eq]

theorem rad30 : (30 : ℝ) * Real.pi / 180 = Real.pi / 6 := by ring
theorem rad45 : (45 : ℝ) * Real.pi / 180 = Real.pi / 4 := by ring
theorem rad60 : (60 : ℝ) * Real.pi / 180 = Real.pi / 3 := by ring
theorem rad90 : (90 : ℝ) * Real.pi / 180 = Real.pi / 2 := by ring
theorem rad120 : (120 : ℝ) * Real.pi / 180 = Real.pi - Real.pi / 3 := by ring
theorem rad180 : (180 : ℝ) * Real.pi / 180 = Real.pi := by ring
theorem rad240 : (240 : ℝ) * Real.pi / 180 = Real.pi / 3 + Real.pi := by ring
theorem rad270 : (270 : ℝ) * Real.pi / 180 = Real.pi / 2 + Real.pi := by ring
theorem rad300 : (300 : ℝ) * Real.pi / 180 = 2 * Real.pi - Real.pi / 3 := by ring

theorem sqrt2_half : √2 / 2 = 1 / √(2 : ℝ) := by
  have h : √2 * √2 = (2 : ℝ) := Real.mul_self_sqrt (by norm_num)
  have : (√2 : ℝ) ≠ 0 := by positivity
  field_simp
  linarith

/-- **C45** (constants).  The named constants are the values of the functions at the angles in their
names (in degrees); `E` is the identity and `INVERSION` its negative. -/
theorem C45_constants :
    E = 1 ∧ INVERSION = -1 ∧
    RX30 = rotationX 30 true ∧ RX45 = rotationX 45 true ∧ RX60 = rotationX 60 true ∧
    RX90 = rotationX 90 true ∧ RX180 = rotationX 180 true ∧ RX270 = rotationX 270 true ∧
    RY30 = rotationY 30 true ∧ RY45 = rotationY 45 true ∧ RY60 = rotationY 60 true ∧
    RY90 = rotationY 90 true ∧ RY180 = rotationY 180 true ∧ RY270 = rotationY 270 true ∧
    RZ30 = rotationZ 30 true ∧ RZ45 = rotationZ 45 true ∧ RZ60 = rotationZ 60 true ∧
    RZ90 = rotationZ 90 true ∧ RZ180 = rotationZ 180 true ∧ RZ270 = rotationZ 270 true := by
  refine ⟨?_, inversion_eq, ?_⟩
  · unfold E
    ext i j
    fin_cases i <;> fin_cases j <;> rfl
  · simp only [RX30, RX45, RX60, RX90, RX180, RX270, RY30, RY45, RY60, RY90, RY180, RY270, RZ30, RZ45,
      RZ60, RZ90, RZ180, RZ270, rotationX, rotationY, rotationZ, toRad_true, withInversion,
      rad30, rad45, rad60, rad90, rad180, rad270, Real.cos_pi_div_six, Real.sin_pi_div_six,
      Real.cos_pi_div_four, Real.sin_pi_div_four, Real.cos_pi_div_three, Real.sin_pi_div_three,
      Real.cos_pi_div_two, Real.sin_pi_div_two, Real.cos_pi, Real.sin_pi, Real.cos_add_pi,
      Real.sin_add_pi, Bool.false_eq_true, if_false, neg_zero, neg_neg, sqrt2_half, neg_div, and_self]

/-- Rodrigues' formula for the axis (1, 1, 1). -/
theorem rodrigues111 (S C t : ℝ) (hS : Real.sin t = S) (hC : Real.cos t = C) :
    rodrigues (1 / √3) (1 / √3) (1 / √3) t =
      !![(1 + 2 * C) / 3, (1 - C) / 3 - S / √3, (1 - C) / 3 + S / √3;
         (1 - C) / 3 + S / √3, (1 + 2 * C) / 3, (1 - C) / 3 - S / √3;
         (1 - C) / 3 - S / √3, (1 - C) / 3 + S / √3, (1 + 2 * C) / 3] := by
  have h3 : √3 * √3 = (3 : ℝ) := Real.mul_self_sqrt (by norm_num)
  have hi : (√3)⁻¹ * (√3)⁻¹ = (1 / 3 : ℝ) := by
    rw [← mul_inv, h3]
    norm_num
  unfold rodrigues
  rw [hS, hC]
  ext i j
  fin_cases i <;> fin_cases j <;> simp [hi] <;> ring

/-- **C45** (constants about [111]). -/
theorem C45_constants_111 :
    rotationGeneral (some [1, 1, 1]) 60 true = .ok R111_60 ∧
    rotationGeneral (some [1, 1, 1]) 120 true = .ok R111_120 ∧
    rotationGeneral (some [1, 1, 1]) 180 true = .ok R111_180 ∧
    rotationGeneral (some [1, 1, 1]) 240 true = .ok R111_240 ∧
    rotationGeneral (some [1, 1, 1]) 300 true = .ok R111_300 := by
  have hr : viewAsZero ≤ √((1 : ℝ) ^ 2 + 1 ^ 2 + 1 ^ 2) := by
    rw [Real.le_sqrt' (by norm_num [viewAsZero])]
    norm_num [viewAsZero]
  have hxy : AxisOk viewAsZero 1 1 := by
    right
    rw [Real.le_sqrt' (by norm_num [viewAsZero])]
    norm_num [viewAsZero]
  have hg : ∀ theta : ℝ, rotationGeneral (some [1, 1, 1]) theta true =
      .ok (rodrigues (1 / √3) (1 / √3) (1 / √3) (theta * Real.pi / 180)) := by
    intro theta
    have := C44_cartesian 1 1 1 theta viewAsZero true false (by norm_num [viewAsZero]) hr hxy
    simp only [if_true, Bool.false_eq_true, if_false] at this
    rw [this]
    norm_num
  have h3 : √3 ≠ (0 : ℝ) := by positivity
  have e3 : √3 / 2 / √3 = (1 / 2 : ℝ) := by field_simp
  simp only [hg, rad60, rad120, rad180, rad240, rad300]
  refine ⟨?_, ?_, ?_, ?_, ?_⟩ <;> congr 1
  · rw [rodrigues111 (√3 / 2) (1 / 2) _ (Real.sin_pi_div_three) (Real.cos_pi_div_three), e3]
    unfold R111_60
    ext i j
    fin_cases i <;> fin_cases j <;> simp <;> norm_num
  · rw [rodrigues111 (√3 / 2) (-(1 / 2)) _ (by rw [Real.sin_pi_sub, Real.sin_pi_div_three])
      (by rw [Real.cos_pi_sub, Real.cos_pi_div_three]), e3]
    unfold R111_120
    ext i j
    fin_cases i <;> fin_cases j <;> simp <;> norm_num
  · rw [rodrigues111 0 (-1) _ Real.sin_pi Real.cos_pi]
    unfold R111_180
    ext i j
    fin_cases i <;> fin_cases j <;> simp <;> norm_num
  · rw [rodrigues111 (-(√3 / 2)) (-(1 / 2)) _ (by rw [Real.sin_add_pi, Real.sin_pi_div_three])
      (by rw [Real.cos_add_pi, Real.cos_pi_div_three]), neg_div, e3]
    unfold R111_240
    ext i j
    fin_cases i <;> fin_cases j <;> simp <;> norm_num
  · rw [rodrigues111 (-(√3 / 2)) (1 / 2) _ (by rw [Real.sin_two_pi_sub, Real.sin_pi_div_three])
      (by rw [Real.cos_two_pi_sub, Real.cos_pi_div_three]), neg_div, e3]
    unfold R111_300
    ext i j
    fin_cases i <;> fin_cases j <;> simp <;> norm_num

/-- **C45** (anti-cyclic permutations).  `AP0`, `AP1`, `AP2` exchange two coordinates and keep the
third; they are reflections. -/
theorem C45_permutations (x y z : ℝ) :
    AP0 *ᵥ ![x, y, z] = ![x, z, y] ∧ AP1 *ᵥ ![x, y, z] = ![z, y, x] ∧
    AP2 *ᵥ ![x, y, z] = ![y, x, z] ∧ OrthDet AP0 (-1) ∧ OrthDet AP1 (-1) ∧ OrthDet AP2 (-1) := by
  refine ⟨?_, ?_, ?_, ?_, ?_, ?_⟩
  · ext i
    fin_cases i <;> simp [AP0, Matrix.mulVec, dotProduct, Fin.sum_univ_three]
  · ext i
    fin_cases i <;> simp [AP1, Matrix.mulVec, dotProduct, Fin.sum_univ_three]
  · ext i
    fin_cases i <;> simp [AP2, Matrix.mulVec, dotProduct, Fin.sum_univ_three]
  · apply of_entries
    · ext i j
      fin_cases i <;> fin_cases j <;> simp [AP0, Matrix.mul_apply, Fin.sum_univ_three]
    · simp [AP0, Matrix.det_fin_three]
  · apply of_entries
    · ext i j
      fin_cases i <;> fin_cases j <;> simp [AP1, Matrix.mul_apply, Fin.sum_univ_three]
    · simp [AP1, Matrix.det_fin_three]
  · apply of_entries
    · ext i j
      fin_cases i <;> fin_cases j <;> simp [AP2, Matrix.mul_apply, Fin.sum_univ_three]
    · simp [AP2, Matrix.det_fin_three]

end Rot

end Verif
