import Verif.Proofs.Polygon
/-!
# C42: location of a point relative to a polygon
-/

namespace Verif

open Classical Geo

theorem hasClosePair_iff (tol : ℝ) (vs : List Pt) :
    Polygon.hasClosePair tol vs ↔ ¬ vs.Pairwise (fun p q => tol < euclid p q) := by
  induction vs with
  | nil => simp [Polygon.hasClosePair]
  | cons p ps ih =>
    simp only [Polygon.hasClosePair, List.pairwise_cons, ih, not_and_or, not_forall, not_lt,
      exists_prop]

/-- **C42** (construction).  A polygon is accepted iff it has at least three vertices (otherwise
AssertionError) that are pairwise farther apart than the tolerance (otherwise ValueError). -/
theorem C42_construction (vs : List Pt) (tol : ℝ) :
    (vs.length < 3 → Polygon.init vs tol = .error .assertionError) ∧
    (3 ≤ vs.length → ¬ vs.Pairwise (fun p q => tol < euclid p q) →
      Polygon.init vs tol = .error .valueError) ∧
    (3 ≤ vs.length → vs.Pairwise (fun p q => tol < euclid p q) →
      ∃ g, Polygon.init vs tol = .ok g ∧ g.vertices = vs) := by
  unfold Polygon.init
  refine ⟨fun h => if_pos h, fun h h2 => ?_, fun h h2 => ?_⟩
  · rw [if_neg (by omega), if_pos ((hasClosePair_iff _ _).mpr h2)]
  · rw [if_neg (by omega), if_neg (by rw [hasClosePair_iff]; exact not_not.mpr h2)]
    exact ⟨_, rfl, rfl⟩

theorem cross_ne_zero_of_gap {tol : ℝ} (h0 : 0 ≤ tol) {a b p : Pt} (hab : a ≠ b)
    (hg : tol < lineGap a b p) : cross a b p ≠ 0 := by
  intro h
  unfold lineGap at hg
  split_ifs at hg with hx
  · unfold cross at h
    rw [hx, sub_self, zero_mul, zero_sub, neg_eq_zero] at h
    have hy : b.2 - a.2 ≠ 0 := by
      intro hy
      exact hab (Prod.ext hx (by linarith))
    have hp := (mul_eq_zero.mp h).resolve_left hy
    rw [hx, hp, abs_zero] at hg
    exact absurd h0 (not_le.mpr hg)
  · rw [h, zero_div, abs_zero] at hg
    exact absurd h0 (not_le.mpr hg)

/-- two points off the line get the same answer iff they are on the same side -/
theorem sides_agree (a b : Pt) (tol : ℝ) (l : Line2D) (h0 : 0 ≤ tol) (hab : a ≠ b)
    (hl : Line2D.init a b tol = .ok l) (hr : Regular tol a b) (p q : Pt)
    (hp : tol < lineGap a b p) (hq : tol < lineGap a b q) :
    l.locationRelation p tol = l.locationRelation q tol ↔ 0 < cross a b p * cross a b q := by
  obtain ⟨p1, p2⟩ := location_ne_on_side a b tol tol l h0 hl hr p hp
  obtain ⟨q1, q2⟩ := location_ne_on_side a b tol tol l h0 hl hr q hq
  have np := cross_ne_zero_of_gap h0 hab hp
  have nq := cross_ne_zero_of_gap h0 hab hq
  by_cases hx : a.1 = b.1
  · rw [p2 hx, q2 hx]
    have ep : cross a b p = (b.2 - a.2) * (a.1 - p.1) := by unfold cross; rw [hx]; ring
    have eq' : cross a b q = (b.2 - a.2) * (a.1 - q.1) := by unfold cross; rw [hx]; ring
    rw [ep] at np
    rw [eq'] at nq
    have hd : 0 < (b.2 - a.2) ^ 2 := by
      have := left_ne_zero_of_mul np
      positivity
    rw [ep, eq', show (b.2 - a.2) * (a.1 - p.1) * ((b.2 - a.2) * (a.1 - q.1)) =
      (b.2 - a.2) ^ 2 * ((a.1 - p.1) * (a.1 - q.1)) by ring, mul_pos_iff_of_pos_left hd]
    rcases lt_or_gt_of_ne (right_ne_zero_of_mul np) with h1 | h1 <;>
      rcases lt_or_gt_of_ne (right_ne_zero_of_mul nq) with h2 | h2
    · rw [if_neg (by linarith), if_neg (by linarith)]
      simp [mul_pos_of_neg_of_neg h1 h2]
    · rw [if_neg (by linarith), if_pos (by linarith)]
      simp [(mul_neg_of_neg_of_pos h1 h2).le]
    · rw [if_pos (by linarith), if_neg (by linarith)]
      simp [(mul_neg_of_pos_of_neg h1 h2).le]
    · rw [if_pos (by linarith), if_pos (by linarith)]
      simp [mul_pos h1 h2]
  · rw [p1 hx, q1 hx]
    have hd : b.1 - a.1 ≠ 0 := sub_ne_zero.mpr (Ne.symm hx)
    have key : cross a b p * cross a b q = (b.1 - a.1) ^ 2 *
        (cross a b p / (b.1 - a.1) * (cross a b q / (b.1 - a.1))) := by
      field_simp
    have hd2 : 0 < (b.1 - a.1) ^ 2 := by positivity
    rw [key, mul_pos_iff_of_pos_left hd2]
    rcases lt_or_gt_of_ne (div_ne_zero np hd) with h1 | h1 <;>
      rcases lt_or_gt_of_ne (div_ne_zero nq hd) with h2 | h2
    · rw [if_pos h1, if_pos h2]
      simp [mul_pos_of_neg_of_neg h1 h2]
    · rw [if_pos h1, if_neg (not_lt.mpr h2.le)]
      simp [(mul_neg_of_neg_of_pos h1 h2).le]
    · rw [if_neg (not_lt.mpr h1.le), if_pos h2]
      simp [(mul_neg_of_pos_of_neg h1 h2).le]
    · rw [if_neg (not_lt.mpr h1.le), if_neg (not_lt.mpr h2.le)]
      simp [mul_pos h1 h2]

theorem mul_sign_pos {s x y : ℝ} (hs : s = 1 ∨ s = -1) (hy : 0 < s * y) : 0 < x * y ↔ 0 < s * x := by
  rcases hs with rfl | rfl
  · rw [one_mul] at hy ⊢
    exact mul_pos_iff_of_pos_right hy
  · have : y < 0 := by linarith
    rw [show x * y = (-x) * (-y) by ring, mul_pos_iff_of_pos_right (by linarith)]
    simp

/-- An edge of nonzero length is a valid line. -/
theorem line_of_regular {a b : Pt} {tol : ℝ} (hr : Regular tol a b) (hab : a ≠ b) :
    ∃ l, Line2D.init a b tol = .ok l := by
  refine ⟨_, (line_init_ok_iff _ _ _ _).mpr ⟨?_, rfl⟩⟩
  by_contra h
  push Not at h
  exact hab (Prod.ext (hr.1.resolve_right (not_lt.mpr h.1)).symm
    (hr.2.resolve_right (not_lt.mpr h.2)).symm)

/-- **C42** (points away from the edge lines, any tolerance).  Let the polygon be convex, with edges
whose components are zero or larger than the tolerance, and let the reference point be inside and
farther than the tolerance from every edge line.  A point farther than the tolerance from every edge
line is classified correctly: CORNER iff within `tol` of a vertex, otherwise INSIDE iff it belongs to
the filled polygon, otherwise OUTSIDE. -/
theorem C42_generic_points (vs : List Pt) (tol : ℝ) (h0 : 0 ≤ tol) (hc : ConvexPolygon vs)
    (hreg : ∀ a b, IsEdge vs a b → Regular tol a b) (p ref : Pt) (href : ref ∈ region vs)
    (hrefgap : ∀ a b, IsEdge vs a b → tol < lineGap a b ref)
    (hgap : ∀ a b, IsEdge vs a b → tol < lineGap a b p) :
    Polygon.locationRelation ⟨vs⟩ p ref tol = .ok
      (if ∃ v ∈ vs, euclid v p ≤ tol then .corner
       else if p ∈ region vs then .inside else .outside) := by
  obtain ⟨h3, hn, s, hs1, hs⟩ := hc
  unfold Polygon.locationRelation
  by_cases hcor : ∃ v ∈ vs, euclid v p ≤ tol
  · simp only [hcor, if_true]
  rw [if_neg hcor, if_neg hcor]
  have main : ∀ es : List (Pt × Pt), (∀ a b, (a, b) ∈ es → IsEdge vs a b) →
      (∀ a b, IsEdge vs a b → (a, b) ∈ es ∨ 0 < s * cross a b p) →
      Polygon.edgeLoop p ref tol es = .ok (if p ∈ region vs then .inside else .outside) := by
    intro es
    induction es with
    | nil =>
      intro _ h
      have : p ∈ region vs := (mem_region_iff h3 hn hs p).mpr fun a b hab =>
        ((h a b hab).resolve_left (by simp)).le
      simp [Polygon.edgeLoop, this]
    | cons e es ih =>
      obtain ⟨a, b⟩ := e
      intro h1 h2
      have hab := h1 a b (by simp)
      have hne := isEdge_ne h3 hn hab
      obtain ⟨l, hl⟩ := line_of_regular (hreg a b hab) hne
      have hnot : l.locationRelation p tol ≠ .on := fun h =>
        absurd ((C40_location a b tol tol l h0 hl (hreg a b hab) p).1.mp h)
          (not_le.mpr (hgap a b hab))
      have hrefpos : 0 < s * cross a b ref := by
        have h := (mem_region_iff h3 hn hs ref).mp href a b hab
        have hx := cross_ne_zero_of_gap h0 hne (hrefgap a b hab)
        refine lt_of_le_of_ne h (Ne.symm (mul_ne_zero ?_ hx))
        rcases hs1 with rfl | rfl <;> norm_num
      have hagree := sides_agree a b tol l h0 hne hl (hreg a b hab) p ref (hgap a b hab)
        (hrefgap a b hab)
      rw [mul_sign_pos hs1 hrefpos] at hagree
      simp only [Polygon.edgeLoop, hl, bind, Except.bind]
      rw [if_neg hnot]
      by_cases heq : l.locationRelation p tol = l.locationRelation ref tol
      · rw [if_neg (not_not.mpr heq)]
        apply ih (fun a b h => h1 a b (by simp [h]))
        intro a' b' h'
        rcases h2 a' b' h' with h | h
        · rcases List.mem_cons.mp h with h | h
          · cases h
            exact .inr (hagree.mp heq)
          · exact .inl h
        · exact .inr h
      · rw [if_pos heq]
        have : p ∉ region vs := fun hp => by
          have := (mem_region_iff h3 hn hs p).mp hp a b hab
          have hx := cross_ne_zero_of_gap h0 hne (hgap a b hab)
          have hs0 : s ≠ 0 := by rcases hs1 with rfl | rfl <;> norm_num
          exact heq (hagree.mpr (lt_of_le_of_ne this (Ne.symm (mul_ne_zero hs0 hx))))
        simp [this, pure, Except.pure]
  exact main _ (fun a b h => (mem_edges_iff vs a b).mp h)
    (fun a b h => .inl ((mem_edges_iff vs a b).mpr h))

theorem euclid_le_zero (p q : Pt) : euclid p q ≤ 0 ↔ p = q := by
  unfold euclid
  constructor
  · intro h
    have h1 : Real.sqrt ((p.1 - q.1) ^ 2 + (p.2 - q.2) ^ 2) = 0 := le_antisymm h (Real.sqrt_nonneg _)
    rw [Real.sqrt_eq_zero (by positivity)] at h1
    have hx : (p.1 - q.1) ^ 2 = 0 := by nlinarith [sq_nonneg (p.1 - q.1), sq_nonneg (p.2 - q.2)]
    have hy : (p.2 - q.2) ^ 2 = 0 := by nlinarith [sq_nonneg (p.1 - q.1), sq_nonneg (p.2 - q.2)]
    exact Prod.ext (sub_eq_zero.mp (pow_eq_zero_iff (by norm_num) |>.mp hx))
      (sub_eq_zero.mp (pow_eq_zero_iff (by norm_num) |>.mp hy))
  · rintro rfl
    simp

theorem regular_zero (a b : Pt) : Regular 0 a b := by
  refine ⟨?_, ?_⟩
  · by_cases h : b.1 = a.1
    · exact .inl h
    · exact .inr (abs_pos.mpr (sub_ne_zero.mpr h))
  · by_cases h : b.2 = a.2
    · exact .inl h
    · exact .inr (abs_pos.mpr (sub_ne_zero.mpr h))

theorem lineGap_le_zero {a b : Pt} (hab : a ≠ b) (p : Pt) : lineGap a b p ≤ 0 ↔ cross a b p = 0 := by
  constructor
  · intro h
    by_contra hx
    have : lineGap a b p = 0 := le_antisymm h (by unfold lineGap; split_ifs <;> positivity)
    unfold lineGap at this
    split_ifs at this with h1
    · apply hx
      rw [abs_eq_zero] at this
      unfold cross
      rw [h1] at this ⊢
      rw [this]
      ring
    · rw [abs_eq_zero, div_eq_zero_iff] at this
      rcases this with h2 | h2
      · exact hx h2
      · exact h1 (by linarith)
  · intro h
    by_contra hx
    exact cross_ne_zero_of_gap le_rfl hab (not_le.mp hx) h

/-- on a non-vertical line, being in the segment is being in the range of `x` -/
theorem mem_segment_of_x {a b p : Pt} (hx : a.1 ≠ b.1) (h0 : cross a b p = 0) :
    p ∈ segment ℝ a b ↔ min a.1 b.1 ≤ p.1 ∧ p.1 ≤ max a.1 b.1 := by
  have hd : b.1 - a.1 ≠ 0 := sub_ne_zero.mpr (Ne.symm hx)
  constructor
  · rintro ⟨u, v, hu, hv, huv, rfl⟩
    have hu' : u = 1 - v := by linarith
    subst hu'
    simp only [Prod.fst_add, Prod.smul_fst, smul_eq_mul]
    rcases le_total a.1 b.1 with h | h
    · rw [min_eq_left h, max_eq_right h]
      constructor <;> nlinarith
    · rw [min_eq_right h, max_eq_left h]
      constructor <;> nlinarith
  · rintro ⟨h1, h2⟩
    unfold cross at h0
    refine ⟨1 - (p.1 - a.1) / (b.1 - a.1), (p.1 - a.1) / (b.1 - a.1), ?_, ?_, by ring, ?_⟩
    · rcases lt_or_gt_of_ne hx with h | h
      · rw [max_eq_right h.le] at h2
        rw [sub_nonneg, div_le_one (by linarith)]
        linarith
      · rw [min_eq_right h.le] at h1
        rw [sub_nonneg, div_le_one_of_neg (by linarith)]
        linarith
    · rcases lt_or_gt_of_ne hx with h | h
      · rw [min_eq_left h.le] at h1
        exact div_nonneg (by linarith) (by linarith)
      · rw [max_eq_left h.le] at h2
        exact div_nonneg_of_nonpos (by linarith) (by linarith)
    · ext
      · simp only [Prod.fst_add, Prod.smul_fst, smul_eq_mul]
        field_simp
        ring
      · simp only [Prod.snd_add, Prod.smul_snd, smul_eq_mul]
        field_simp
        linear_combination -h0

theorem boundary_subset_region {vs : List Pt} {p : Pt} (hp : p ∈ boundary vs) : p ∈ region vs := by
  obtain ⟨a, b, hab, hseg⟩ := hp
  exact segment_subset_convexHull (s := {q | q ∈ vs}) (isEdge_left_mem hab) (isEdge_right_mem hab) hseg

/-- **C42** (exact, tolerance 0; partial).  For a convex polygon and an interior reference point every
point is classified correctly (CORNER for vertices, BOUNDARY for other points of the edges, INSIDE for
the other points of the filled polygon, OUTSIDE otherwise), provided the point does not lie on the line
of a vertical edge beyond that edge.  Missing for the full property: those points, for which the code is
wrong (`C42_vertical_edge_bug`). -/
theorem C42_exact_partial (vs : List Pt) (hc : ConvexPolygon vs) (p ref : Pt)
    (href : ref ∈ region vs) (hrefb : ref ∉ boundary vs)
    (hvert : ∀ a b, IsEdge vs a b → a.1 = b.1 → p.1 = a.1 → p ∈ segment ℝ a b) :
    Polygon.locationRelation ⟨vs⟩ p ref 0 = .ok
      (if p ∈ vs then .corner
       else if p ∈ boundary vs then .boundary
       else if p ∈ region vs then .inside else .outside) := by
  obtain ⟨h3, hn, s, hs1, hs⟩ := hc
  have hs0 : s ≠ 0 := by rcases hs1 with rfl | rfl <;> norm_num
  unfold Polygon.locationRelation
  by_cases hcor : p ∈ vs
  · rw [if_pos ⟨p, hcor, (euclid_le_zero _ _).mpr rfl⟩, if_pos hcor]
  have hcor' : ¬ ∃ v ∈ vs, euclid v p ≤ 0 := by
    rintro ⟨v, hv, h⟩
    rw [euclid_le_zero] at h
    exact hcor (h ▸ hv)
  rw [if_neg hcor', if_neg hcor]
  have main : ∀ es : List (Pt × Pt), (∀ a b, (a, b) ∈ es → IsEdge vs a b) →
      (∀ a b, IsEdge vs a b → (a, b) ∈ es ∨ 0 < s * cross a b p) →
      Polygon.edgeLoop p ref 0 es = .ok (if p ∈ boundary vs then .boundary
        else if p ∈ region vs then .inside else .outside) := by
    intro es
    induction es with
    | nil =>
      intro _ h
      have h' : ∀ a b, IsEdge vs a b → 0 < s * cross a b p := fun a b hab =>
        (h a b hab).resolve_left (by simp)
      have hreg : p ∈ region vs := (mem_region_iff h3 hn hs p).mpr fun a b hab => (h' a b hab).le
      have hb : p ∉ boundary vs := by
        rintro ⟨a, b, hab, hseg⟩
        have := (mem_segment_iff h3 hn hs hreg hab).mp hseg
        have h2 := h' a b hab
        rw [this, mul_zero] at h2
        exact lt_irrefl _ h2
      simp [Polygon.edgeLoop, hreg, hb]
    | cons e es ih =>
      obtain ⟨a, b⟩ := e
      intro h1 h2
      have hab := h1 a b (by simp)
      have hne := isEdge_ne h3 hn hab
      obtain ⟨l, hl⟩ := line_of_regular (regular_zero a b) hne
      have hon := (C40_location a b 0 0 l le_rfl hl (regular_zero a b) p).1
      rw [lineGap_le_zero hne] at hon
      simp only [Polygon.edgeLoop, hl, bind, Except.bind]
      by_cases hx : cross a b p = 0
      · rw [if_pos (hon.mpr hx)]
        by_cases hvx : a.1 = b.1
        · -- a vertical edge
          have hpx : p.1 = a.1 := by
            unfold cross at hx
            rw [hvx, sub_self, zero_mul, zero_sub, neg_eq_zero] at hx
            have hy : b.2 - a.2 ≠ 0 := fun hy => hne (Prod.ext hvx (by linarith))
            have := (mul_eq_zero.mp hx).resolve_left hy
            linarith
          have hseg := hvert a b hab hvx hpx
          have hb : p ∈ boundary vs := ⟨a, b, hab, hseg⟩
          rw [if_pos (by rw [← hvx, hpx, min_self, max_self]; exact ⟨le_rfl, le_rfl⟩), if_pos hb]
          rfl
        · by_cases hin : min a.1 b.1 ≤ p.1 ∧ p.1 ≤ max a.1 b.1
          · have hb : p ∈ boundary vs := ⟨a, b, hab, (mem_segment_of_x hvx hx).mpr hin⟩
            rw [if_pos hin, if_pos hb]
            rfl
          · have hr : p ∉ region vs := fun hr =>
              hin ((mem_segment_of_x hvx hx).mp ((mem_segment_iff h3 hn hs hr hab).mpr hx))
            have hb : p ∉ boundary vs := fun h => hr (boundary_subset_region h)
            rw [if_neg hin, if_neg hb, if_neg hr]
            rfl
      · rw [if_neg (fun h => hx (hon.mp h))]
        have hgap : 0 < lineGap a b p := by
          by_contra h
          exact hx ((lineGap_le_zero hne p).mp (not_lt.mp h))
        have hxr : cross a b ref ≠ 0 := fun h =>
          hrefb ⟨a, b, hab, (mem_segment_iff h3 hn hs href hab).mpr h⟩
        have hgapr : 0 < lineGap a b ref := by
          by_contra h
          exact hxr ((lineGap_le_zero hne ref).mp (not_lt.mp h))
        have hrefpos : 0 < s * cross a b ref :=
          lt_of_le_of_ne ((mem_region_iff h3 hn hs ref).mp href a b hab)
            (Ne.symm (mul_ne_zero hs0 hxr))
        have hagree := sides_agree a b 0 l le_rfl hne hl (regular_zero a b) p ref hgap hgapr
        rw [mul_sign_pos hs1 hrefpos] at hagree
        by_cases heq : l.locationRelation p 0 = l.locationRelation ref 0
        · rw [if_neg (not_not.mpr heq)]
          apply ih (fun a b h => h1 a b (by simp [h]))
          intro a' b' h'
          rcases h2 a' b' h' with h | h
          · rcases List.mem_cons.mp h with h | h
            · cases h
              exact .inr (hagree.mp heq)
            · exact .inl h
          · exact .inr h
        · rw [if_pos heq]
          have hr : p ∉ region vs := fun hp => by
            have := (mem_region_iff h3 hn hs p).mp hp a b hab
            exact heq (hagree.mpr (lt_of_le_of_ne this (Ne.symm (mul_ne_zero hs0 hx))))
          have hb : p ∉ boundary vs := fun h => hr (boundary_subset_region h)
          rw [if_neg hb, if_neg hr]
          rfl
  exact main _ (fun a b h => (mem_edges_iff vs a b).mp h)
    (fun a b h => .inl ((mem_edges_iff vs a b).mpr h))

/-- **C42** (exact, no vertical edge).  For a convex polygon without vertical edges every point is
classified correctly. -/
theorem C42_no_vertical_edge (vs : List Pt) (hc : ConvexPolygon vs) (p ref : Pt)
    (href : ref ∈ region vs) (hrefb : ref ∉ boundary vs)
    (hvert : ∀ a b, IsEdge vs a b → a.1 ≠ b.1) :
    Polygon.locationRelation ⟨vs⟩ p ref 0 = .ok
      (if p ∈ vs then .corner
       else if p ∈ boundary vs then .boundary
       else if p ∈ region vs then .inside else .outside) :=
  C42_exact_partial vs hc p ref href hrefb fun a b h h1 _ => absurd h1 (hvert a b h)

theorem isEdge_cases4 {w x y z a b : Pt} (h : IsEdge [w, x, y, z] a b) :
    (a = w ∧ b = x) ∨ (a = x ∧ b = y) ∨ (a = y ∧ b = z) ∨ (a = z ∧ b = w) := by
  obtain ⟨i, h1, h2⟩ := h
  match i with
  | 0 => simp at h1 h2; exact .inl ⟨h1.symm, h2.symm⟩
  | 1 => simp at h1 h2; exact .inr (.inl ⟨h1.symm, h2.symm⟩)
  | 2 => simp at h1 h2; exact .inr (.inr (.inl ⟨h1.symm, h2.symm⟩))
  | 3 => simp at h1 h2; exact .inr (.inr (.inr ⟨h1.symm, h2.symm⟩))
  | n + 4 => simp at h1

/-- The unit square of `C42_vertical_edge_bug`. -/
def unitSquare : List Pt := [(0, 0), (0, 1), (1, 1), (1, 0)]

theorem unitSquare_convex : ConvexPolygon unitSquare := by
  refine ⟨by simp [unitSquare], by simp [unitSquare], -1, .inr rfl, ?_⟩
  intro a b q h hq h1 h2
  have hq' : q = (0, 0) ∨ q = (0, 1) ∨ q = (1, 1) ∨ q = (1, 0) := by simpa [unitSquare] using hq
  rcases isEdge_cases4 h with ⟨rfl, rfl⟩ | ⟨rfl, rfl⟩ | ⟨rfl, rfl⟩ | ⟨rfl, rfl⟩ <;>
    rcases hq' with rfl | rfl | rfl | rfl <;> simp_all [cross]

/-- **C42** is violated: for the unit square and the point (0, 5), four units above the left edge's
end, the code answers BOUNDARY, although the point is not in the square (default tolerance, reference
point (1/2, 1/2)). -/
theorem C42_vertical_edge_bug : ConvexPolygon unitSquare ∧
    (∃ g, Polygon.init unitSquare = .ok g ∧
      g.locationRelation (0, 5) (1 / 2, 1 / 2) = .ok .boundary) ∧
    ((0, 5) : Pt) ∉ region unitSquare := by
  refine ⟨unitSquare_convex, ⟨⟨unitSquare⟩, ?_, ?_⟩, ?_⟩
  · obtain ⟨⟨g⟩, hg, rfl⟩ := (C42_construction unitSquare defaultTol).2.2 (by simp [unitSquare]) (by
      have h2 : (1 : ℝ) / 10 ^ 10 < Real.sqrt 2 := by
        rw [Real.lt_sqrt (by norm_num)]
        norm_num
      simp only [unitSquare, defaultTol, euclid, List.pairwise_cons, List.mem_cons, List.not_mem_nil]
      norm_num at h2 ⊢
      exact h2)
    exact hg
  · unfold Polygon.locationRelation
    rw [if_neg]
    · have h1 : Line2D.init (0, 0) (0, 1) defaultTol = .ok ⟨(0, 0), (0, 1), (0, 1), false, true⟩ := by
        unfold Line2D.init
        norm_num [defaultTol]
      have : ∃ es, Polygon.edges unitSquare = ((0, 0), (0, 1)) :: es := ⟨_, rfl⟩
      obtain ⟨es, hes⟩ := this
      simp only [hes, Polygon.edgeLoop, h1, bind, Except.bind]
      rw [if_pos]
      · simp [pure, Except.pure]
      · norm_num [Line2D.locationRelation, defaultTol]
    · rintro ⟨v, hv, h⟩
      have hv' : v = (0, 0) ∨ v = (0, 1) ∨ v = (1, 1) ∨ v = (1, 0) := by simpa [unitSquare] using hv
      have hlt : defaultTol < euclid v (0, 5) := by
        unfold euclid
        rw [Real.lt_sqrt (by norm_num [defaultTol])]
        rcases hv' with rfl | rfl | rfl | rfl <;> norm_num [defaultTol]
      exact absurd h (not_le.mpr hlt)
  · intro h
    have := (mem_region_iff (s := -1) (by simp [unitSquare]) unitSquare_convex.2.1 (by
      intro a b q h hq h1 h2
      have hq' : q = (0, 0) ∨ q = (0, 1) ∨ q = (1, 1) ∨ q = (1, 0) := by simpa [unitSquare] using hq
      rcases isEdge_cases4 h with ⟨rfl, rfl⟩ | ⟨rfl, rfl⟩ | ⟨rfl, rfl⟩ | ⟨rfl, rfl⟩ <;>
        rcases hq' with rfl | rfl | rfl | rfl <;> simp_all [cross]) (0, 5)).mp h (0, 1) (1, 1)
      ⟨1, rfl, rfl⟩
    norm_num [cross] at this

/-- A square standing on a corner (no vertical edges). -/
def diamond : List Pt := [(1, 0), (0, 1), (-1, 0), (0, -1)]

theorem diamond_sides : ∀ a b q, IsEdge diamond a b → q ∈ diamond → q ≠ a → q ≠ b →
    0 < (1 : ℝ) * cross a b q := by
  intro a b q h hq h1 h2
  have hq' : q = (1, 0) ∨ q = (0, 1) ∨ q = (-1, 0) ∨ q = (0, -1) := by simpa [diamond] using hq
  rcases isEdge_cases4 h with ⟨rfl, rfl⟩ | ⟨rfl, rfl⟩ | ⟨rfl, rfl⟩ | ⟨rfl, rfl⟩ <;>
    rcases hq' with rfl | rfl | rfl | rfl <;> first | exact absurd rfl h1 | exact absurd rfl h2 | norm_num [cross]

theorem diamond_convex : ConvexPolygon diamond := by
  refine ⟨by simp [diamond], by norm_num [diamond], 1, .inl rfl, diamond_sides⟩

/-- Non-vacuity of C42: the diamond with the centre as reference point meets the hypotheses of all three
theorems; the centre is inside, (1/2, 1/2) is on the boundary and (1, 1) is outside. -/
example : ConvexPolygon diamond ∧ ((0, 0) : Pt) ∈ region diamond ∧ ((0, 0) : Pt) ∉ boundary diamond ∧
    (∀ a b, IsEdge diamond a b → a.1 ≠ b.1) ∧ (∀ a b, IsEdge diamond a b → Regular defaultTol a b) ∧
    (∀ a b, IsEdge diamond a b → defaultTol < lineGap a b (0, 0)) ∧
    (∀ a b, IsEdge diamond a b → defaultTol < lineGap a b (1, 1)) ∧
    ((1 / 2, 1 / 2) : Pt) ∈ boundary diamond ∧ ((1, 1) : Pt) ∉ region diamond := by
  have hr := mem_region_iff (s := 1) (by simp [diamond]) diamond_convex.2.1 diamond_sides
  have h00 : ((0, 0) : Pt) ∈ region diamond := by
    rw [hr]
    intro a b h
    rcases isEdge_cases4 h with ⟨rfl, rfl⟩ | ⟨rfl, rfl⟩ | ⟨rfl, rfl⟩ | ⟨rfl, rfl⟩ <;>
      norm_num [cross]
  refine ⟨diamond_convex, h00, ?_, ?_, ?_, ?_, ?_, ?_, ?_⟩
  · rintro ⟨a, b, h, hseg⟩
    have := (mem_segment_iff (by simp [diamond]) diamond_convex.2.1 diamond_sides h00 h).mp hseg
    rcases isEdge_cases4 h with ⟨rfl, rfl⟩ | ⟨rfl, rfl⟩ | ⟨rfl, rfl⟩ | ⟨rfl, rfl⟩ <;>
      norm_num [cross] at this
  · intro a b h
    rcases isEdge_cases4 h with ⟨rfl, rfl⟩ | ⟨rfl, rfl⟩ | ⟨rfl, rfl⟩ | ⟨rfl, rfl⟩ <;> norm_num
  · intro a b h
    rcases isEdge_cases4 h with ⟨rfl, rfl⟩ | ⟨rfl, rfl⟩ | ⟨rfl, rfl⟩ | ⟨rfl, rfl⟩ <;>
      norm_num [Regular, defaultTol]
  · intro a b h
    rcases isEdge_cases4 h with ⟨rfl, rfl⟩ | ⟨rfl, rfl⟩ | ⟨rfl, rfl⟩ | ⟨rfl, rfl⟩ <;>
      norm_num [lineGap, defaultTol, cross]
  · intro a b h
    rcases isEdge_cases4 h with ⟨rfl, rfl⟩ | ⟨rfl, rfl⟩ | ⟨rfl, rfl⟩ | ⟨rfl, rfl⟩ <;>
      norm_num [lineGap, defaultTol, cross]
  · refine ⟨(1, 0), (0, 1), ⟨0, rfl, rfl⟩, 1 / 2, 1 / 2, by norm_num, by norm_num, by norm_num, ?_⟩
    ext <;> norm_num
  · intro h
    have := (hr _).mp h (1, 0) (0, 1) ⟨0, rfl, rfl⟩
    norm_num [cross] at this

end Verif
