import Verif.Proofs.Octahedron
/-!
# C129: the drawing of an octahedron
-/

namespace Verif.Oct

/-- **C129 (shape).**  For all viewing angles, the marked corners are those of a regular octahedron, and the lines are its
edges and the connections with the centre. -/
theorem C129_shape (azimuth elevation : ℤ) :
    RegularOctahedron (drawing azimuth elevation).corners (Real.sqrt 2) 2 ∧ DrawsEdges (drawing azimuth elevation) :=
  ⟨regular, drawsEdges azimuth elevation⟩

/-- **C129 (hidden lines).**  From which directions the dashed lines are the hidden ones. -/
theorem C129_hidden (azimuth elevation : ℤ) (d : V3) :
    DashesRight (drawing azimuth elevation) d ↔ |d 1| < d 2 / Real.sqrt 2 ∧ d 2 / Real.sqrt 2 < d 0 :=
  dashesRight_iff azimuth elevation d

/-- **C129 (azimuth 0).**  Seen along the first axis, this is at elevations between 0 and that of the upper front face. -/
theorem C129_elevation (elevation : ℝ) (h1 : -90 < elevation) (h2 : elevation < 90) (az el : ℤ) :
    DashesRight (drawing az el) (viewDirection 0 elevation) ↔
      0 < elevation ∧ Real.tan (elevation * Real.pi / 180) < Real.sqrt 2 := by
  have hpi := Real.pi_pos
  have h2s : 0 < Real.sqrt 2 := by positivity
  have hc : 0 < Real.cos (elevation * Real.pi / 180) := Real.cos_pos_of_mem_Ioo ⟨by nlinarith, by nlinarith⟩
  rw [C129_hidden]
  simp only [viewDirection, zero_mul, zero_div, Real.cos_zero, Real.sin_zero, mul_one, mul_zero]
  simp only [Matrix.cons_val_zero, Matrix.cons_val_one, Matrix.cons_val, abs_zero]
  rw [Real.tan_eq_sin_div_cos, div_lt_iff₀ hc, div_lt_iff₀ h2s, mul_comm (Real.cos _)]
  refine and_congr_left fun _ => ?_
  constructor
  · intro h
    by_contra hn
    have : Real.sin (elevation * Real.pi / 180) ≤ 0 := Real.sin_nonpos_of_nonpos_of_neg_pi_le (by nlinarith) (by nlinarith)
    have := div_nonpos_of_nonpos_of_nonneg this h2s.le
    linarith
  · intro h
    exact div_pos (Real.sin_pos_of_pos_of_lt_pi (by positivity) (by nlinarith)) h2s

/-- **C129 (the script).**  What the script displays and saves: the octahedron, with the hidden lines dashed; the name of
the file tells the viewing angles. -/
theorem C129_script :
    script.1 = drawing 0 20 ∧ script.2 = ("Octahedron_azimuth=0_elevation=20.png".toList, script.1) ∧
      DashesRight script.1 (viewDirection script.1.azimuth script.1.elevation) := by
  refine ⟨rfl, rfl, ?_⟩
  have hpi := Real.pi_pos
  have := (C129_elevation 20 (by norm_num) (by norm_num) 0 20).2 ⟨by norm_num, ?_⟩
  · show DashesRight (drawing 0 20) (viewDirection ((0 : ℤ) : ℝ) ((20 : ℤ) : ℝ))
    norm_num
    exact this
  · have h1 : Real.tan (20 * Real.pi / 180) < Real.tan (Real.pi / 4) :=
      Real.tan_lt_tan_of_nonneg_of_lt_pi_div_two (by positivity) (by linarith) (by linarith)
    rw [Real.tan_pi_div_four] at h1
    exact h1.trans (by rw [Real.lt_sqrt (by norm_num)]; norm_num)

/-! ### The statements are not empty -/

/-- For the elevation in the comment of the script, -36, the dashes would be wrong. -/
example : ¬ DashesRight (drawing 0 (-36)) (viewDirection 0 (-36)) := by
  rw [C129_elevation _ (by norm_num) (by norm_num)]
  norm_num

/-- From above, nothing of the upper half is hidden: the dashes are wrong too. -/
example : ¬ DashesRight (drawing 0 90) ![0, 0, 1] := by
  rw [C129_hidden]
  intro h
  have h1 := h.2
  simp at h1
  linarith [Real.sqrt_nonneg 2]

/-- The middle of the edge in the back is hidden, that of an edge in front is not. -/
example : HiddenAt (solid (drawing 0 20).corners) ![3, 0, 1] ![-1, 0, 0] ∧
    ¬ HiddenAt (solid (drawing 0 20).corners) ![3, 0, 1] ![1, 0, 0] := by
  have h : DashesRight (drawing 0 20) ![3, 0, 1] := by
    rw [C129_hidden]
    have h2 : 1 ≤ Real.sqrt 2 := Real.one_le_sqrt.2 (by norm_num)
    have h3 : 0 < 1 / Real.sqrt 2 := by positivity
    have h4 : 1 / Real.sqrt 2 ≤ 1 := (div_le_one (by positivity)).2 h2
    simp at h3 h4 ⊢
    exact h4.trans_lt (by norm_num)
  have m : ∀ p q : V3, (1 / 2 : ℝ) • p + (1 / 2 : ℝ) • q ∈ openSegment ℝ p q := fun p q =>
    ⟨1 / 2, 1 / 2, by norm_num, by norm_num, by norm_num, rfl⟩
  have a := (h ⟨point3, point4, true, lineWidth, false⟩ (by simp [drawing, lines]) _ (m _ _)).1 rfl
  have b := (h ⟨point1, point2, false, lineWidth, false⟩ (by simp [drawing, lines]) _ (m _ _)).not
  have ea : (1 / 2 : ℝ) • point3 + (1 / 2 : ℝ) • point4 = ![-1, 0, 0] := by
    ext i; fin_cases i <;> simp [point3, point4]; norm_num
  have eb : (1 / 2 : ℝ) • point1 + (1 / 2 : ℝ) • point2 = ![1, 0, 0] := by
    ext i; fin_cases i <;> simp [point1, point2]; norm_num
  simp only [ea] at a
  simp only [eb] at b
  exact ⟨a, b.1 (by decide)⟩

end Verif.Oct
