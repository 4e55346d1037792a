import Verif.Proofs.RotationReach
/-!
# C103: which matrices the rotation functions make, and when two calls make the same one
-/

namespace Verif.Rot

open Matrix Verif.Spec

/-- An angle in the unit of the flag `deg`: a full turn is `2π` or 360. -/
noncomputable def turn (deg : Bool) : ℝ := if deg then 360 else 2 * Real.pi

theorem toRad_scale (deg : Bool) (t : ℝ) : toRad deg (t / (2 * Real.pi) * turn deg) = t := by
  have := Real.pi_ne_zero
  cases deg
  · simp [toRad_false, turn]
  · rw [toRad_true]; simp only [turn, if_true]; field_simp; ring

theorem scale_range (deg : Bool) {t : ℝ} :
    (-Real.pi < t → -(turn deg / 2) < t / (2 * Real.pi) * turn deg) ∧
    (t ≤ Real.pi → t / (2 * Real.pi) * turn deg ≤ turn deg / 2) ∧
    (0 ≤ t → 0 ≤ t / (2 * Real.pi) * turn deg) := by
  have hp := Real.pi_pos
  have ht : 0 < turn deg := by cases deg <;> simp [turn] <;> positivity
  have e : t / (2 * Real.pi) * turn deg = t * (turn deg / 2) / Real.pi := by field_simp
  rw [e]
  refine ⟨fun h => ?_, fun h => ?_, fun h => by positivity⟩
  · rw [lt_div_iff₀ hp]; nlinarith
  · rw [div_le_iff₀ hp]; nlinarith

/-- An orthogonal matrix of the sign of the flag, without its sign. -/
theorem OrthDet.uninvert {R : Mat3} {inv : Bool} (h : OrthDet R (if inv then -1 else 1)) :
    ∃ R', OrthDet R' 1 ∧ R = withInversion inv R' := by
  refine ⟨withInversion inv R, ?_, ?_⟩
  · rw [withInversion_eq]
    obtain ⟨a1, a2, a3⟩ := h
    cases inv
    · exact ⟨a1, a2, a3⟩
    · refine ⟨by simp [a1], by simp [a2], ?_⟩
      simp only [if_true] at a3 ⊢
      rw [det_neg, a3]; norm_num
  · rw [withInversion_eq, withInversion_eq]
    cases inv <;> simp

/-- **C103 (Euler angles).** `RotationEuler` makes exactly the orthogonal matrices of determinant 1, and -1
with inversion; the first and the last angle can be chosen within half a turn, the middle one between zero
and half a turn. -/
theorem C103_euler (R : Mat3) (deg inv : Bool) :
    (∃ a b c, rotationEuler a b c deg inv = R) ↔ OrthDet R (if inv then -1 else 1) := by
  constructor
  · rintro ⟨a, b, c, rfl⟩
    exact (C43_orthogonal a b c deg inv).2.2.2
  · intro h
    obtain ⟨R', h', rfl⟩ := h.uninvert
    obtain ⟨a, b, c, -, -, -, -, -, -, rfl⟩ := euler_angles h'
    refine ⟨a / (2 * Real.pi) * turn deg, b / (2 * Real.pi) * turn deg, c / (2 * Real.pi) * turn deg, ?_⟩
    simp only [rotationEuler, toRad_scale]
    rfl

/-- **C103 (range of the Euler angles).** -/
theorem C103_euler_range (R : Mat3) (deg inv : Bool) (h : OrthDet R (if inv then -1 else 1)) :
    ∃ a b c, rotationEuler a b c deg inv = R ∧ -(turn deg / 2) < a ∧ a ≤ turn deg / 2 ∧
      0 ≤ b ∧ b ≤ turn deg / 2 ∧ -(turn deg / 2) < c ∧ c ≤ turn deg / 2 := by
  obtain ⟨R', h', rfl⟩ := h.uninvert
  obtain ⟨a, b, c, a1, a2, b1, b2, c1, c2, rfl⟩ := euler_angles h'
  refine ⟨a / (2 * Real.pi) * turn deg, b / (2 * Real.pi) * turn deg, c / (2 * Real.pi) * turn deg, ?_,
    (scale_range deg).1 a1, (scale_range deg).2.1 a2, (scale_range deg).2.2 b1, (scale_range deg).2.1 b2,
    (scale_range deg).1 c1, (scale_range deg).2.1 c2⟩
  simp only [rotationEuler, toRad_scale]
  rfl

/-- **C103 (axis and angle).** `RotationGeneral` with an axis given by two angles makes exactly the same
matrices; the rotation angle can be chosen within half a turn. -/
theorem C103_general (R : Mat3) (deg inv : Bool) (thr : ℝ) :
    (∃ a b t, rotationGeneral (some [a, b]) t deg inv thr = .ok R) ↔ OrthDet R (if inv then -1 else 1) := by
  constructor
  · rintro ⟨a, b, t, h⟩
    have := C44_spherical a b t thr deg inv
    simp only at this
    rw [this] at h
    have := (orth_general (Real.cos_sq_add_sin_sq (toRad deg a)) (Real.cos_sq_add_sin_sq (toRad deg b))
      (Real.cos_sq_add_sin_sq (toRad deg t))).inv inv
    rw [generalMatrix_rodrigues (Real.cos_sq_add_sin_sq _) (Real.cos_sq_add_sin_sq _), withInversion_eq] at this
    rw [← Except.ok.inj h]
    exact this
  · intro h
    obtain ⟨R', h', rfl⟩ := h.uninvert
    obtain ⟨a, b, t, -, -, -, -, -, -, rfl⟩ := axis_angle h'
    refine ⟨a / (2 * Real.pi) * turn deg, b / (2 * Real.pi) * turn deg, t / (2 * Real.pi) * turn deg, ?_⟩
    simp only [rotationGeneral, toRad_scale]
    rw [generalMatrix_rodrigues (Real.cos_sq_add_sin_sq _) (Real.cos_sq_add_sin_sq _)]

/-- **C103 (Cartesian axes).** For every orthogonal matrix and every threshold there is an axis vector, of
suitable length, that the threshold does not blur. -/
theorem C103_general_cartesian (R : Mat3) (deg inv : Bool) (thr : ℝ) (h0 : 0 < thr)
    (h : OrthDet R (if inv then -1 else 1)) :
    ∃ x y z t, rotationGeneral (some [x, y, z]) t deg inv thr = .ok R ∧ thr ≤ √(x ^ 2 + y ^ 2 + z ^ 2) ∧
      -(turn deg / 2) < t ∧ t ≤ turn deg / 2 := by
  obtain ⟨R', h', rfl⟩ := h.uninvert
  obtain ⟨a, b, t, -, -, b1, b2, t1, t2, rfl⟩ := axis_angle h'
  have hsb : 0 ≤ Real.sin b := Real.sin_nonneg_of_nonneg_of_le_pi b1 b2
  -- the length of the axis
  set k := if Real.sin b = 0 then thr else thr / Real.sin b with hk
  have hk0 : 0 < k := by
    rw [hk]; split_ifs with hs
    · exact h0
    · exact div_pos h0 (lt_of_le_of_ne hsb (Ne.symm hs))
  have hkt : thr ≤ k := by
    rw [hk]; split_ifs with hs
    · exact le_rfl
    · have := lt_of_le_of_ne hsb (Ne.symm hs)
      rw [le_div_iff₀ this]
      nlinarith [Real.sin_le_one b]
  have hn : √((k * (Real.sin b * Real.cos a)) ^ 2 + (k * (Real.sin b * Real.sin a)) ^ 2 +
      (k * Real.cos b) ^ 2) = k := by
    rw [show (k * (Real.sin b * Real.cos a)) ^ 2 + (k * (Real.sin b * Real.sin a)) ^ 2 + (k * Real.cos b) ^ 2 =
        k ^ 2 by
      linear_combination (k ^ 2 * Real.sin b ^ 2) * Real.sin_sq_add_cos_sq a + k ^ 2 * Real.sin_sq_add_cos_sq b]
    exact Real.sqrt_sq hk0.le
  refine ⟨k * (Real.sin b * Real.cos a), k * (Real.sin b * Real.sin a), k * Real.cos b,
    t / (2 * Real.pi) * turn deg, ?_, hkt.trans hn.ge, (scale_range deg).1 t1, (scale_range deg).2.1 t2⟩
  have := C44_cartesian (k * (Real.sin b * Real.cos a)) (k * (Real.sin b * Real.sin a)) (k * Real.cos b)
    (t / (2 * Real.pi) * turn deg) thr deg inv h0 (hkt.trans hn.ge) (by
      by_cases hs : Real.sin b = 0
      · exact Or.inl ⟨by rw [hs]; ring, by rw [hs]; ring⟩
      · right
        rw [show (k * (Real.sin b * Real.cos a)) ^ 2 + (k * (Real.sin b * Real.sin a)) ^ 2 = (k * Real.sin b) ^ 2 by
          linear_combination (k ^ 2 * Real.sin b ^ 2) * Real.sin_sq_add_cos_sq a,
          Real.sqrt_sq (mul_nonneg hk0.le hsb), hk, if_neg hs, div_mul_cancel₀ _ hs])
  simp only [hn] at this
  rw [this, withInversion_eq]
  have ht : (if deg = true then t / (2 * Real.pi) * turn deg * Real.pi / 180
      else t / (2 * Real.pi) * turn deg) = t := toRad_scale deg t
  rw [ht, mul_div_cancel_left₀ _ hk0.ne', mul_div_cancel_left₀ _ hk0.ne', mul_div_cancel_left₀ _ hk0.ne']

/-- **C103 (when two calls make the same rotation).** The rotations by `t` about the axis `n` and by `t'`
about `n'` are equal if and only if both angles are full turns, or the axes have the same direction and the
angles agree up to full turns, or the axes are opposite and the angles are opposite up to full turns. -/
theorem C103_same_rotation (x y z x' y' z' t t' thr : ℝ) (inv : Bool) (h0 : 0 < thr)
    (hr : thr ≤ √(x ^ 2 + y ^ 2 + z ^ 2)) (hxy : AxisOk thr x y)
    (hr' : thr ≤ √(x' ^ 2 + y' ^ 2 + z' ^ 2)) (hxy' : AxisOk thr x' y') :
    rotationGeneral (some [x, y, z]) t false inv thr = rotationGeneral (some [x', y', z']) t' false inv thr ↔
      ((∃ n : ℤ, t = n * (2 * Real.pi)) ∧ (∃ n : ℤ, t' = n * (2 * Real.pi))) ∨
      ((∃ k > 0, x' = k * x ∧ y' = k * y ∧ z' = k * z) ∧ ∃ n : ℤ, t' = t + n * (2 * Real.pi)) ∨
      ((∃ k < 0, x' = k * x ∧ y' = k * y ∧ z' = k * z) ∧ ∃ n : ℤ, t' = -t + n * (2 * Real.pi)) := by
  have e1 := C44_cartesian x y z t thr false inv h0 hr hxy
  have e2 := C44_cartesian x' y' z' t' thr false inv h0 hr' hxy'
  simp only [Bool.false_eq_true, if_false] at e1 e2
  rw [e1, e2]
  have hq : 0 < √(x ^ 2 + y ^ 2 + z ^ 2) := lt_of_lt_of_le h0 hr
  have hq' : 0 < √(x' ^ 2 + y' ^ 2 + z' ^ 2) := lt_of_lt_of_le h0 hr'
  have hs : √(x ^ 2 + y ^ 2 + z ^ 2) ^ 2 = x ^ 2 + y ^ 2 + z ^ 2 := Real.sq_sqrt (by positivity)
  have hs' : √(x' ^ 2 + y' ^ 2 + z' ^ 2) ^ 2 = x' ^ 2 + y' ^ 2 + z' ^ 2 := Real.sq_sqrt (by positivity)
  generalize hR : √(x ^ 2 + y ^ 2 + z ^ 2) = r at hq hs
  generalize hR' : √(x' ^ 2 + y' ^ 2 + z' ^ 2) = r' at hq' hs'
  have u : (x / r) ^ 2 + (y / r) ^ 2 + (z / r) ^ 2 = 1 := by
    rw [div_pow, div_pow, div_pow, ← add_div, ← add_div, ← hs, div_self (pow_ne_zero _ hq.ne')]
  have u' : (x' / r') ^ 2 + (y' / r') ^ 2 + (z' / r') ^ 2 = 1 := by
    rw [div_pow, div_pow, div_pow, ← add_div, ← add_div, ← hs', div_self (pow_ne_zero _ hq'.ne')]
  have hsign : (Except.ok (if inv = true then -rodrigues (x / r) (y / r) (z / r) t
        else rodrigues (x / r) (y / r) (z / r) t) : Py Mat3) =
      .ok (if inv = true then -rodrigues (x' / r') (y' / r') (z' / r') t'
        else rodrigues (x' / r') (y' / r') (z' / r') t') ↔
      rodrigues (x / r) (y / r) (z / r) t = rodrigues (x' / r') (y' / r') (z' / r') t' := by
    rw [Except.ok.injEq]
    cases inv <;> simp
  rw [hsign, rodrigues_eq_iff u u']
  have full : ∀ s : ℝ, Real.cos s = 1 ↔ ∃ n : ℤ, s = n * (2 * Real.pi) := fun s => by
    rw [Real.cos_eq_one_iff]
    exact ⟨fun ⟨n, hn⟩ => ⟨n, hn.symm⟩, fun ⟨n, hn⟩ => ⟨n, hn.symm⟩⟩
  have same : ∀ s s' : ℝ, (Real.cos s = Real.cos s' ∧ Real.sin s = Real.sin s') ↔
      ∃ n : ℤ, s' = s + n * (2 * Real.pi) := by
    intro s s'
    constructor
    · rintro ⟨h1, h2⟩
      have : Real.cos (s' - s) = 1 := by
        rw [Real.cos_sub, h1, h2]
        have := Real.sin_sq_add_cos_sq s'
        linarith
      obtain ⟨n, hn⟩ := (full _).1 this
      exact ⟨n, by linarith⟩
    · rintro ⟨n, rfl⟩
      exact ⟨(Real.cos_add_int_mul_two_pi s n).symm, (Real.sin_add_int_mul_two_pi s n).symm⟩
  constructor
  · rintro ⟨hc, h | ⟨h1, h2, h3, h4⟩ | ⟨h1, h2, h3, h4⟩⟩
    · exact Or.inl ⟨(full t).1 h, (full t').1 (hc ▸ h)⟩
    · refine Or.inr (Or.inl ⟨⟨r' / r, div_pos hq' hq, ?_, ?_, ?_⟩, (same t t').1 ⟨hc, h4⟩⟩)
      · field_simp at h1 ⊢; linarith
      · field_simp at h2 ⊢; linarith
      · field_simp at h3 ⊢; linarith
    · refine Or.inr (Or.inr ⟨⟨-(r' / r), neg_neg_of_pos (div_pos hq' hq), ?_, ?_, ?_⟩,
        (same (-t) t').1 ⟨by rw [Real.cos_neg]; exact hc, by rw [Real.sin_neg, h4, neg_neg]⟩⟩)
      · field_simp at h1 ⊢; linarith
      · field_simp at h2 ⊢; linarith
      · field_simp at h3 ⊢; linarith
  · have len : ∀ k, x' = k * x → y' = k * y → z' = k * z → r' = |k| * r := by
      intro k h1 h2 h3
      rw [← hR', ← hR, h1, h2, h3, show (k * x) ^ 2 + (k * y) ^ 2 + (k * z) ^ 2 =
        k ^ 2 * (x ^ 2 + y ^ 2 + z ^ 2) by ring, Real.sqrt_mul (sq_nonneg k), Real.sqrt_sq_eq_abs]
    rintro (⟨h, h'⟩ | ⟨⟨k, hk, h1, h2, h3⟩, h⟩ | ⟨⟨k, hk, h1, h2, h3⟩, h⟩)
    · have a := (full t).2 h
      exact ⟨a.trans ((full t').2 h').symm, Or.inl a⟩
    · have a := (same t t').2 h
      have hl := len k h1 h2 h3
      rw [abs_of_pos hk] at hl
      refine ⟨a.1, Or.inr (Or.inl ⟨?_, ?_, ?_, a.2⟩)⟩
      · rw [h1, hl, mul_div_mul_left _ _ hk.ne']
      · rw [h2, hl, mul_div_mul_left _ _ hk.ne']
      · rw [h3, hl, mul_div_mul_left _ _ hk.ne']
    · have a := (same (-t) t').2 h
      rw [Real.cos_neg, Real.sin_neg] at a
      have hl := len k h1 h2 h3
      rw [abs_of_neg hk] at hl
      refine ⟨a.1, Or.inr (Or.inr ⟨?_, ?_, ?_, by linarith [a.2]⟩)⟩
      · rw [h1, hl, neg_mul, div_neg, mul_div_mul_left _ _ hk.ne, neg_neg]
      · rw [h2, hl, neg_mul, div_neg, mul_div_mul_left _ _ hk.ne, neg_neg]
      · rw [h3, hl, neg_mul, div_neg, mul_div_mul_left _ _ hk.ne, neg_neg]

/-- The rotation that permutes the three coordinate axes cyclically has Euler angles in degrees. -/
example : ∃ a b c, rotationEuler a b c true false = !![0, 0, 1; 1, 0, 0; 0, 1, 0] := by
  refine (C103_euler _ true false).2 ⟨?_, ?_, ?_⟩
  · ext i j; fin_cases i <;> fin_cases j <;> simp [Matrix.mul_apply, Fin.sum_univ_three]
  · ext i j; fin_cases i <;> fin_cases j <;> simp [Matrix.mul_apply, Fin.sum_univ_three]
  · simp [Matrix.det_fin_three]

/-- A half turn about an axis is the half turn about the opposite axis. -/
example : rotationGeneral (some [1, 2, 2]) Real.pi false false (1 / 10 ^ 10) =
    rotationGeneral (some [-1, -2, -2]) Real.pi false false (1 / 10 ^ 10) := by
  have h3 : √((1 : ℝ) ^ 2 + 2 ^ 2 + 2 ^ 2) = 3 := by
    rw [show (1 : ℝ) ^ 2 + 2 ^ 2 + 2 ^ 2 = 3 ^ 2 by norm_num]; exact Real.sqrt_sq (by norm_num)
  have h5 : (1 : ℝ) ≤ √((1 : ℝ) ^ 2 + 2 ^ 2) := Real.one_le_sqrt.2 (by norm_num)
  refine (C103_same_rotation 1 2 2 (-1) (-2) (-2) Real.pi Real.pi (1 / 10 ^ 10) false (by norm_num)
    (by rw [h3]; norm_num) (Or.inr (le_trans (by norm_num) h5))
    (by simp only [neg_sq]; rw [h3]; norm_num) (Or.inr (by simp only [neg_sq]; exact le_trans (by norm_num) h5))).2
    (Or.inr (Or.inr ⟨⟨-1, by norm_num, by norm_num, by norm_num, by norm_num⟩, 1, by push_cast; ring⟩))

end Verif.Rot
