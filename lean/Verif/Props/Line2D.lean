import Verif.Model.Line2D
import Verif.Spec.Geometry
import Mathlib.Tactic.FieldSimp
import Mathlib.Tactic.LinearCombination
import Mathlib.Tactic.NormNum
import Mathlib.Tactic.Positivity
/-!
# C40, C41: lines in the plane
-/

namespace Verif

open Classical Geo

theorem line_init_ok_iff (p0 p1 : Pt) (tol : ℝ) (l : Line2D) :
    Line2D.init p0 p1 tol = .ok l ↔
      (tol < |p1.1 - p0.1| ∨ tol < |p1.2 - p0.2|) ∧
      l = ⟨p0, p1, (p1.1 - p0.1, p1.2 - p0.2), decide (|p1.2 - p0.2| ≤ tol),
        decide (|p1.1 - p0.1| ≤ tol)⟩ := by
  unfold Line2D.init
  by_cases h : |p1.1 - p0.1| ≤ tol ∧ |p1.2 - p0.2| ≤ tol
  · simp only [h, and_self, if_true, reduceCtorEq, false_iff, not_and]
    intro h2
    rcases h2 with h2 | h2
    · exact absurd h.1 (not_le.mpr h2)
    · exact absurd h.2 (not_le.mpr h2)
  · rw [if_neg h]
    have : tol < |p1.1 - p0.1| ∨ tol < |p1.2 - p0.2| := by
      by_contra h2
      push Not at h2
      exact h h2
    simp only [Except.ok.injEq, this, true_and]
    exact eq_comm

/-- The line is not in the tolerance gap: each component of `p1 - p0` is exactly zero or larger than
the tolerance. -/
def Regular (tol : ℝ) (p0 p1 : Pt) : Prop :=
  (p1.1 = p0.1 ∨ tol < |p1.1 - p0.1|) ∧ (p1.2 = p0.2 ∨ tol < |p1.2 - p0.2|)

/-- **C40** (construction).  A line is built unless both components of `p1 - p0` are within the
tolerance, in which case ValueError is raised; the flags are as documented and never both true. -/
theorem C40_construction (p0 p1 : Pt) (tol : ℝ) :
    ((|p1.1 - p0.1| ≤ tol ∧ |p1.2 - p0.2| ≤ tol) → Line2D.init p0 p1 tol = .error .valueError) ∧
    (¬ (|p1.1 - p0.1| ≤ tol ∧ |p1.2 - p0.2| ≤ tol) → ∃ l, Line2D.init p0 p1 tol = .ok l ∧
      (l.isHorizontal = true ↔ |p1.2 - p0.2| ≤ tol) ∧ (l.isVertical = true ↔ |p1.1 - p0.1| ≤ tol) ∧
      ¬ (l.isHorizontal = true ∧ l.isVertical = true)) := by
  unfold Line2D.init
  constructor
  · intro h
    rw [if_pos h]
  · intro h
    rw [if_neg h]
    refine ⟨_, rfl, by simp, by simp, ?_⟩
    simpa [and_comm] using h

/-- **C40** (classification).  For a line outside the tolerance gap and a point: the answer is ON iff
the point is within `tol` of the line (measured along y; along x for vertical lines), otherwise it is
BELOW/ABOVE (LEFT/RIGHT for vertical lines) according to the true side: there is a point of the line
with the same `x` (same `y`) that is above/below (right/left of) the point. -/
theorem C40_location (p0 p1 : Pt) (tol0 tol : ℝ) (l : Line2D) (h0 : 0 ≤ tol0)
    (hl : Line2D.init p0 p1 tol0 = .ok l) (hr : Regular tol0 p0 p1) (p : Pt) :
    (l.locationRelation p tol = .on ↔ lineGap p0 p1 p ≤ tol) ∧
    (p0.1 ≠ p1.1 → ∀ q : Pt, cross p0 p1 q = 0 → q.1 = p.1 →
      (l.locationRelation p tol = .below ↔ tol < lineGap p0 p1 p ∧ p.2 < q.2) ∧
      (l.locationRelation p tol = .above ↔ tol < lineGap p0 p1 p ∧ q.2 ≤ p.2) ∧
      l.locationRelation p tol ≠ .left ∧ l.locationRelation p tol ≠ .right) ∧
    (p0.1 = p1.1 → ∀ q : Pt, cross p0 p1 q = 0 → q.2 = p.2 →
      (l.locationRelation p tol = .left ↔ tol < lineGap p0 p1 p ∧ p.1 < q.1) ∧
      (l.locationRelation p tol = .right ↔ tol < lineGap p0 p1 p ∧ q.1 ≤ p.1) ∧
      l.locationRelation p tol ≠ .below ∧ l.locationRelation p tol ≠ .above) := by
  obtain ⟨hne, rfl⟩ := (line_init_ok_iff _ _ _ _).mp hl
  obtain ⟨hrx, hry⟩ := hr
  unfold Line2D.locationRelation
  simp only
  by_cases hx : p0.1 = p1.1
  · -- vertical
    have hy : tol0 < |p1.2 - p0.2| := by
      rcases hne with h | h
      · rw [hx, sub_self, abs_zero] at h
        exact absurd h0 (not_le.mpr h)
      · exact h
    have hgap : lineGap p0 p1 p = |p.1 - p0.1| := by simp [lineGap, hx]
    have hvert : |p1.1 - p0.1| ≤ tol0 := by rw [hx, sub_self, abs_zero]; exact h0
    rw [hgap]
    simp only [not_le.mpr hy, decide_false, Bool.false_eq_true, if_false, hvert, decide_true, if_true]
    refine ⟨?_, fun h => absurd hx h, ?_⟩
    · split_ifs with h1 <;> simp [h1]
    · intro _ q hq hq2
      have hq1 : q.1 = p0.1 := by
        unfold cross at hq
        rw [hx, sub_self, zero_mul, zero_sub, neg_eq_zero] at hq
        rcases mul_eq_zero.mp hq with h | h
        · rw [h, abs_zero] at hy
          exact absurd h0 (not_le.mpr hy)
        · linarith
      rw [hq1]
      split_ifs with h1 h2
      · simp [not_lt.mpr h1]
      · simp [not_le.mp h1, h2]
      · simp [not_le.mp h1, h2, not_lt.mp h2]
  · have hgap : lineGap p0 p1 p = |cross p0 p1 p / (p1.1 - p0.1)| := by simp [lineGap, hx]
    have hdx : p1.1 - p0.1 ≠ 0 := sub_ne_zero.mpr (Ne.symm hx)
    have hx' : tol0 < |p1.1 - p0.1| := by
      rcases hrx with h | h
      · exact absurd h.symm hx
      · exact h
    have key : cross p0 p1 p / (p1.1 - p0.1) =
        p.2 - ((p1.2 - p0.2) / (p1.1 - p0.1) * (p.1 - p0.1) + p0.2) := by
      unfold cross
      field_simp
      ring
    rw [hgap, key]
    have hyq : ∀ q : Pt, cross p0 p1 q = 0 → q.1 = p.1 →
        q.2 = (p1.2 - p0.2) / (p1.1 - p0.1) * (p.1 - p0.1) + p0.2 := by
      intro q hq hq1
      unfold cross at hq
      rw [hq1] at hq
      field_simp
      linear_combination hq
    refine ⟨?_, ?_, fun h => absurd h hx⟩
    · by_cases hy : |p1.2 - p0.2| ≤ tol0
      · have hy0 : p1.2 = p0.2 := by
          rcases hry with h | h
          · exact h
          · exact absurd hy (not_le.mpr h)
        simp only [hy, decide_true, if_true]
        rw [hy0, sub_self, zero_div, zero_mul, zero_add]
        split_ifs with h1 <;> simp [h1]
      · simp only [hy, decide_false, Bool.false_eq_true, if_false, not_le.mpr hx']
        split_ifs with h1 <;> simp [h1]
    · intro _ q hq hq1
      rw [hyq q hq hq1]
      by_cases hy : |p1.2 - p0.2| ≤ tol0
      · have hy0 : p1.2 = p0.2 := by
          rcases hry with h | h
          · exact h
          · exact absurd hy (not_le.mpr h)
        simp only [hy, decide_true, if_true]
        rw [hy0, sub_self, zero_div, zero_mul, zero_add]
        split_ifs with h1 h2
        · simp [not_lt.mpr h1]
        · simp [not_le.mp h1, h2]
        · simp [not_le.mp h1, h2, not_lt.mp h2]
      · simp only [hy, decide_false, Bool.false_eq_true, if_false, not_le.mpr hx']
        split_ifs with h1 h2
        · simp [not_lt.mpr h1]
        · simp [not_le.mp h1, h2]
        · simp [not_le.mp h1, h2, not_lt.mp h2]

theorem cross_swap (a b p : Pt) : cross b a p = - cross a b p := by
  unfold cross
  ring

theorem lineGap_swap (a b p : Pt) : lineGap b a p = lineGap a b p := by
  unfold lineGap
  by_cases h : a.1 = b.1
  · simp [h]
  · rw [if_neg h, if_neg (Ne.symm h), cross_swap, ← neg_sub b.1 a.1, neg_div_neg_eq]

/-- On a line outside the gap, the classification is determined by the gap and the side. -/
theorem location_ne_on_side (p0 p1 : Pt) (tol0 tol : ℝ) (l : Line2D) (h0 : 0 ≤ tol0)
    (hl : Line2D.init p0 p1 tol0 = .ok l) (hr : Regular tol0 p0 p1) (p : Pt)
    (hgap : tol < lineGap p0 p1 p) :
    (p0.1 ≠ p1.1 → l.locationRelation p tol =
      if cross p0 p1 p / (p1.1 - p0.1) < 0 then .below else .above) ∧
    (p0.1 = p1.1 → l.locationRelation p tol = if p.1 < p0.1 then .left else .right) := by
  obtain ⟨-, h1, h2⟩ := C40_location p0 p1 tol0 tol l h0 hl hr p
  constructor
  · intro hx
    have hdx : p1.1 - p0.1 ≠ 0 := sub_ne_zero.mpr (Ne.symm hx)
    have key : cross p0 p1 p / (p1.1 - p0.1) =
        p.2 - ((p1.2 - p0.2) / (p1.1 - p0.1) * (p.1 - p0.1) + p0.2) := by
      unfold cross
      field_simp
      ring
    obtain ⟨hb, ha, -⟩ := h1 hx (p.1, (p1.2 - p0.2) / (p1.1 - p0.1) * (p.1 - p0.1) + p0.2)
      (by unfold cross; field_simp; ring) rfl
    rw [key]
    split_ifs with h
    · exact hb.mpr ⟨hgap, by linarith⟩
    · exact ha.mpr ⟨hgap, by linarith⟩
  · intro hx
    obtain ⟨hb, ha, -⟩ := h2 hx (p0.1, p.2) (by unfold cross; rw [hx]; ring) rfl
    split_ifs with h
    · exact hb.mpr ⟨hgap, h⟩
    · exact ha.mpr ⟨hgap, not_lt.mp h⟩

/-- **C40** (orientation).  Swapping the two defining points of a line outside the tolerance gap does
not change any answer. -/
theorem C40_orientation (p0 p1 : Pt) (tol0 tol : ℝ) (l l' : Line2D) (h0 : 0 ≤ tol0)
    (hl : Line2D.init p0 p1 tol0 = .ok l) (hl' : Line2D.init p1 p0 tol0 = .ok l')
    (hr : Regular tol0 p0 p1) (p : Pt) :
    l'.locationRelation p tol = l.locationRelation p tol := by
  have hr' : Regular tol0 p1 p0 := by
    obtain ⟨h1, h2⟩ := hr
    refine ⟨h1.imp Eq.symm (fun h => ?_), h2.imp Eq.symm (fun h => ?_)⟩
    · rwa [abs_sub_comm]
    · rwa [abs_sub_comm]
  by_cases hgap : tol < lineGap p0 p1 p
  · have hgap' : tol < lineGap p1 p0 p := by rwa [lineGap_swap]
    obtain ⟨a1, a2⟩ := location_ne_on_side p0 p1 tol0 tol l h0 hl hr p hgap
    obtain ⟨b1, b2⟩ := location_ne_on_side p1 p0 tol0 tol l' h0 hl' hr' p hgap'
    by_cases hx : p0.1 = p1.1
    · rw [a2 hx, b2 hx.symm, hx]
    · rw [a1 hx, b1 (Ne.symm hx), cross_swap, ← neg_sub p1.1 p0.1, neg_div_neg_eq]
  · have hgap' : lineGap p1 p0 p ≤ tol := by rw [lineGap_swap]; exact not_lt.mp hgap
    rw [(C40_location p0 p1 tol0 tol l h0 hl hr p).1.mpr (not_lt.mp hgap),
      (C40_location p1 p0 tol0 tol l' h0 hl' hr' p).1.mpr hgap']

/-- **C40** (the gap).  Inside the tolerance gap the answer can depend on the order of the defining
points: the line through (0, 0) and (1, 1e-10) and the point (0, 2e-10) with the default tolerance. -/
theorem C40_gap_depends_on_orientation : ∃ l l', Line2D.init (0, 0) (1, 1 / 10 ^ 10) = .ok l ∧
    Line2D.init (1, 1 / 10 ^ 10) (0, 0) = .ok l' ∧
    l.locationRelation (0, 2 / 10 ^ 10) = .above ∧ l'.locationRelation (0, 2 / 10 ^ 10) = .on := by
  refine ⟨_, _, (line_init_ok_iff _ _ _ _).mpr ⟨.inl ?_, rfl⟩,
    (line_init_ok_iff _ _ _ _).mpr ⟨.inl ?_, rfl⟩, ?_, ?_⟩
  · norm_num [defaultTol]
  · norm_num [defaultTol]
  · norm_num [Line2D.locationRelation, defaultTol]
  · norm_num [Line2D.locationRelation, defaultTol]

/-- Non-vacuity of C40: the docstring example, line through (0,0) and (1,1). -/
example : ∃ l, Line2D.init (0, 0) (1, 1) = .ok l ∧ Regular defaultTol (0, 0) (1, 1) ∧
    l.locationRelation (0, 1) = .above ∧ l.locationRelation (1/2, 1/2) = .on ∧
    l.locationRelation (1, 0) = .below := by
  refine ⟨_, (line_init_ok_iff _ _ _ _).mpr ⟨.inl ?_, rfl⟩, ⟨.inr ?_, .inr ?_⟩, ?_, ?_, ?_⟩ <;>
    norm_num [Line2D.locationRelation, defaultTol]

/-- **C41** (points).  Every point of `PointsFactory` is ON its line, if the line is outside the
tolerance gap or the ratio is in `[-1, 1]` (in particular for the default ratios). -/
theorem C41_points_factory (p0 p1 : Pt) (tol : ℝ) (l : Line2D) (h0 : 0 ≤ tol)
    (hl : Line2D.init p0 p1 tol = .ok l) (ratios : Option (List ℝ)) (p : Pt)
    (hp : p ∈ l.pointsFactory ratios)
    (h : Regular tol p0 p1 ∨ ∀ rs, ratios = some rs → ∀ r ∈ rs, |r| ≤ 1) :
    l.locationRelation p tol = .on := by
  have key : ∀ r : ℝ, p = l.pointOf r → (Regular tol p0 p1 ∨ |r| ≤ 1) →
      l.locationRelation p tol = .on := by
    obtain ⟨hne, rfl⟩ := (line_init_ok_iff _ _ _ _).mp hl
    rintro r rfl hr
    unfold Line2D.locationRelation Line2D.pointOf
    have small : ∀ d : ℝ, |d| ≤ tol → (d = 0 ∨ tol < |d| ∨ |r| ≤ 1) → |r * d| ≤ tol := by
      intro d hd h
      rcases h with h | h | h
      · simp [h, h0]
      · exact absurd hd (not_le.mpr h)
      · rw [abs_mul]
        calc |r| * |d| ≤ 1 * |d| := mul_le_mul_of_nonneg_right h (abs_nonneg _)
          _ ≤ tol := by rwa [one_mul]
    by_cases hh : |p1.2 - p0.2| ≤ tol
    · have := small _ hh (by
        rcases hr with ⟨-, h | h⟩ | h
        · exact .inl (by rw [h, sub_self])
        · exact .inr (.inl h)
        · exact .inr (.inr h))
      rw [abs_mul] at this
      simp [hh, this]
    · by_cases hv : |p1.1 - p0.1| ≤ tol
      · have := small _ hv (by
          rcases hr with ⟨h | h, -⟩ | h
          · exact .inl (by rw [h, sub_self])
          · exact .inr (.inl h)
          · exact .inr (.inr h))
        rw [abs_mul] at this
        simp [hh, hv, this]
      · have hdx : p1.1 - p0.1 ≠ 0 := by
          intro h
          rw [h, abs_zero] at hv
          exact hv h0
        have : p0.2 + r * (p1.2 - p0.2) -
            ((p1.2 - p0.2) / (p1.1 - p0.1) * (p0.1 + r * (p1.1 - p0.1) - p0.1) + p0.2) = 0 := by
          field_simp
          ring
        simp only [hh, hv, decide_false, Bool.false_eq_true, if_false, this, abs_zero, h0, if_true]
  cases ratios with
  | none =>
    simp only [Line2D.pointsFactory, Line2D.defaultRatios, List.map_map, List.mem_map,
      List.mem_range] at hp
    obtain ⟨i, hi, rfl⟩ := hp
    refine key _ rfl (.inr ?_)
    rw [abs_of_nonneg (by positivity), div_le_one (by norm_num)]
    have : i ≤ 100 := by omega
    exact_mod_cast this
  | some rs =>
    simp only [Line2D.pointsFactory, List.mem_map] at hp
    obtain ⟨r, hr, rfl⟩ := hp
    refine key r rfl (h.imp id fun h => h rs rfl r hr)

/-- **C41** (number of points).  `PointsFactory` returns one point per ratio (101 by default), in order,
the one for ratio `r` being `p0 + r (p1 - p0)`. -/
theorem C41_points_factory_values (p0 p1 : Pt) (tol : ℝ) (l : Line2D)
    (hl : Line2D.init p0 p1 tol = .ok l) (rs : List ℝ) :
    l.pointsFactory (some rs) =
      rs.map (fun r => (p0.1 + r * (p1.1 - p0.1), p0.2 + r * (p1.2 - p0.2))) ∧
    (l.pointsFactory none).length = 101 ∧ (l.pointsFactory none).head? = some p0 ∧
    (l.pointsFactory none).getLast? = some p1 := by
  obtain ⟨hne, rfl⟩ := (line_init_ok_iff _ _ _ _).mp hl
  refine ⟨rfl, by simp [Line2D.pointsFactory, Line2D.defaultRatios], ?_, ?_⟩
  · simp [Line2D.pointsFactory, Line2D.defaultRatios, Line2D.pointOf, List.head?_range]
  · simp [Line2D.pointsFactory, Line2D.defaultRatios, Line2D.pointOf, List.getLast?_range]

/-- **C41** (`Coordinate`).  A point returned by `Coordinate` has the known coordinate and is ON the
line; `which` other than x/y raises AssertionError; asking a horizontal line for `x` from `y`, or a
vertical line for `y` from `x`, raises RuntimeError, and nothing else fails. -/
theorem C41_coordinate (p0 p1 : Pt) (tol : ℝ) (l : Line2D) (h0 : 0 ≤ tol)
    (hl : Line2D.init p0 p1 tol = .ok l) (known : ℝ) :
    (∀ w p, l.coordinate known w = .ok p → l.locationRelation p tol = .on ∧
      (w = .x → p.1 = known) ∧ (w = .y → p.2 = known)) ∧
    l.coordinate known .other = .error .assertionError ∧
    (|p1.1 - p0.1| ≤ tol → l.coordinate known .x = .error .runtimeError) ∧
    (tol < |p1.1 - p0.1| → ∃ p, l.coordinate known .x = .ok p) ∧
    (|p1.2 - p0.2| ≤ tol → l.coordinate known .y = .error .runtimeError) ∧
    (tol < |p1.2 - p0.2| → ∃ p, l.coordinate known .y = .ok p) := by
  obtain ⟨hne, rfl⟩ := (line_init_ok_iff _ _ _ _).mp hl
  unfold Line2D.coordinate Line2D.locationRelation
  by_cases hh : |p1.2 - p0.2| ≤ tol
  · have hx : ¬ |p1.1 - p0.1| ≤ tol := by
      rcases hne with h | h
      · exact not_le.mpr h
      · exact absurd hh (not_le.mpr h)
    simp only [hh, hx, decide_true, decide_false, if_true, not_lt.mpr hh]
    refine ⟨?_, rfl, fun h => absurd h id, fun _ => ⟨_, rfl⟩, fun _ => rfl, fun h => absurd h id⟩
    rintro (_ | _ | _) p hp
    · cases hp
      simp [h0]
    · cases hp
    · cases hp
  · by_cases hx : |p1.1 - p0.1| ≤ tol
    · simp only [hh, hx, decide_true, decide_false, if_true, not_lt.mpr hx, Bool.false_eq_true,
        if_false]
      refine ⟨?_, rfl, fun _ => rfl, fun h => absurd h id, fun h => absurd h id, fun _ => ⟨_, rfl⟩⟩
      rintro (_ | _ | _) p hp
      · cases hp
      · cases hp
        simp [h0]
      · cases hp
    · have hdx : p1.1 - p0.1 ≠ 0 := by
        intro h
        rw [h, abs_zero] at hx
        exact hx h0
      have hdy : p1.2 - p0.2 ≠ 0 := by
        intro h
        rw [h, abs_zero] at hh
        exact hh h0
      simp only [hh, hx, decide_false, Bool.false_eq_true, if_false]
      refine ⟨?_, rfl, fun h => absurd h id, fun _ => ⟨_, rfl⟩, fun h => absurd h id,
        fun _ => ⟨_, rfl⟩⟩
      rintro (_ | _ | _) p hp
      · cases hp
        simp [h0]
      · cases hp
        have : known - ((p1.2 - p0.2) / (p1.1 - p0.1) *
            ((p1.1 - p0.1) / (p1.2 - p0.2) * (known - p0.2) + p0.1 - p0.1) + p0.2) = 0 := by
          field_simp
          ring
        simp only [this, abs_zero, h0, if_true]
        simp
      · cases hp

/-- **C41** (the gap).  A line inside the tolerance gap produces points that are not ON it for ratios
beyond 1: the line through (0, 0) and (1, 1e-10), ratio 2. -/
theorem C41_gap_point_off_line : ∃ l, Line2D.init (0, 0) (1, 1 / 10 ^ 10) = .ok l ∧
    ∃ p ∈ l.pointsFactory (some [2]), l.locationRelation p = .above := by
  refine ⟨_, (line_init_ok_iff _ _ _ _).mpr ⟨.inl ?_, rfl⟩, _, List.mem_singleton.mpr rfl, ?_⟩
  · norm_num [defaultTol]
  · norm_num [Line2D.locationRelation, defaultTol, Line2D.pointOf]

/-- Non-vacuity of C41: the docstring example `line(0.5, which="x") == (0.5, 0.5)`. -/
example : ∃ l, Line2D.init (0, 0) (1, 1) = .ok l ∧ l.coordinate (1/2) .x = .ok (1/2, 1/2) ∧
    Regular defaultTol (0, 0) (1, 1) := by
  refine ⟨_, (line_init_ok_iff _ _ _ _).mpr ⟨.inl ?_, rfl⟩, ?_, ⟨.inr ?_, .inr ?_⟩⟩
  · norm_num [defaultTol]
  · norm_num [Line2D.coordinate, defaultTol, pyAssert, Bind.bind, Except.bind, pure, Except.pure]
  · norm_num [defaultTol]
  · norm_num [defaultTol]

end Verif
