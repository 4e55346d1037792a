import Verif.Props.Polygon
/-!
# C42: the exact answer for every point

`C42_exact_partial` leaves out the points on the line of a vertical edge beyond that edge, where the code can be wrong.
Here the answer is determined for all points.
-/

namespace Verif

open Classical Geo

/-- `(a, b)` is the edge number `i`. -/
def IsEdgeAt (vs : List Pt) (i : ℕ) (a b : Pt) : Prop := vs[i]? = some a ∧ vs[(i + 1) % vs.length]? = some b

/-- Going through the edges in order, the first one that does not have the point strictly on the side of the reference
point is vertical and has the point on its line. -/
def FirstStopsAtVertical (vs : List Pt) (p ref : Pt) : Prop :=
  ∃ (i : ℕ) (a b : Pt), IsEdgeAt vs i a b ∧ a.1 = b.1 ∧ p.1 = a.1 ∧
    ∀ j < i, ∀ c d, IsEdgeAt vs j c d → 0 < cross c d p * cross c d ref

/-- the same for a list of edges -/
def StopsAtVertical (p ref : Pt) : List (Pt × Pt) → Prop
  | [] => False
  | (a, b) :: es => (a.1 = b.1 ∧ p.1 = a.1) ∨ (0 < cross a b p * cross a b ref ∧ StopsAtVertical p ref es)

theorem stopsAtVertical_iff (p ref : Pt) (es : List (Pt × Pt)) :
    StopsAtVertical p ref es ↔ ∃ (i : ℕ) (a b : Pt), es[i]? = some (a, b) ∧ a.1 = b.1 ∧ p.1 = a.1 ∧
      ∀ j < i, ∀ c d, es[j]? = some (c, d) → 0 < cross c d p * cross c d ref := by
  induction es with
  | nil => simp [StopsAtVertical]
  | cons e es ih =>
    obtain ⟨a, b⟩ := e
    simp only [StopsAtVertical, ih]
    constructor
    · rintro (⟨h1, h2⟩ | ⟨h1, i, a', b', h2, h3, h4, h5⟩)
      · exact ⟨0, a, b, rfl, h1, h2, by simp⟩
      · refine ⟨i + 1, a', b', by simpa using h2, h3, h4, ?_⟩
        intro j hj c d hcd
        cases j with
        | zero =>
          simp at hcd
          obtain ⟨rfl, rfl⟩ := hcd
          exact h1
        | succ j => exact h5 j (by omega) c d (by simpa using hcd)
    · rintro ⟨i, a', b', h2, h3, h4, h5⟩
      cases i with
      | zero =>
        simp at h2
        obtain ⟨rfl, rfl⟩ := h2
        exact .inl ⟨h3, h4⟩
      | succ i =>
        refine .inr ⟨h5 0 (by omega) a b rfl, i, a', b', by simpa using h2, h3, h4, ?_⟩
        intro j hj c d hcd
        exact h5 (j + 1) (by omega) c d (by simpa using hcd)

theorem edges_getElem? (vs : List Pt) (i : ℕ) (a b : Pt) :
    (Polygon.edges vs)[i]? = some (a, b) ↔ IsEdgeAt vs i a b := by
  unfold Polygon.edges IsEdgeAt
  rw [List.getElem?_zip_eq_some]
  constructor
  · rintro ⟨h1, h2⟩
    have hlt : i < vs.length := (List.getElem?_eq_some_iff.mp h1).1
    exact ⟨h1, by rwa [List.getElem?_rotate hlt] at h2⟩
  · rintro ⟨h1, h2⟩
    have hlt : i < vs.length := (List.getElem?_eq_some_iff.mp h1).1
    exact ⟨h1, by rwa [List.getElem?_rotate hlt]⟩

theorem firstStops_iff (vs : List Pt) (p ref : Pt) :
    FirstStopsAtVertical vs p ref ↔ StopsAtVertical p ref (Polygon.edges vs) := by
  rw [stopsAtVertical_iff]
  simp only [edges_getElem?]
  rfl

/-- **C42** (the answer for every point, tolerance 0).  For a convex polygon and an interior reference point: CORNER for
the vertices, BOUNDARY for the other points of the edges, INSIDE for the other points of the filled polygon; a point
outside the polygon is classified OUTSIDE, except when the first edge, in the order of the vertices, that does not have
it strictly on the inner side is a vertical edge with the point on its line: then the answer is BOUNDARY. -/
theorem C42_every_point (vs : List Pt) (hc : ConvexPolygon vs) (p ref : Pt) (href : ref ∈ region vs)
    (hrefb : ref ∉ boundary vs) :
    Polygon.locationRelation ⟨vs⟩ p ref 0 = .ok
      (if p ∈ vs then .corner
       else if p ∈ boundary vs then .boundary
       else if p ∈ region vs then .inside
       else if FirstStopsAtVertical vs p ref then .boundary else .outside) := by
  have hc' := hc
  obtain ⟨h3, hn, s, hs1, hs⟩ := hc
  have hs0 : s ≠ 0 := by rcases hs1 with rfl | rfl <;> norm_num
  have hvcross : ∀ a b : Pt, a.1 = b.1 → p.1 = a.1 → cross a b p = 0 := by
    intro a b h1 h2
    unfold cross
    rw [← h1, h2]
    ring
  by_cases hr : p ∈ region vs
  · rw [C42_exact_partial vs hc' p ref href hrefb (fun a b hab h1 h2 =>
      (mem_segment_iff h3 hn hs hr hab).mpr (hvcross a b h1 h2))]
    simp only [hr, if_true]
  have hb : p ∉ boundary vs := fun h => hr (boundary_subset_region h)
  have hcor : p ∉ vs := fun h => hr (subset_convexHull ℝ {q | q ∈ vs} h)
  have hcor' : ¬ ∃ v ∈ vs, euclid v p ≤ 0 := by
    rintro ⟨v, hv, h⟩
    rw [euclid_le_zero] at h
    exact hcor (h ▸ hv)
  unfold Polygon.locationRelation
  rw [if_neg hcor', if_neg hcor, if_neg hb, if_neg hr]
  have main : ∀ es : List (Pt × Pt), (∀ a b, (a, b) ∈ es → IsEdge vs a b) →
      (∀ a b, IsEdge vs a b → (a, b) ∈ es ∨ 0 < s * cross a b p) →
      Polygon.edgeLoop p ref 0 es = .ok (if StopsAtVertical p ref es then .boundary else .outside) := by
    intro es
    induction es with
    | nil =>
      intro _ h
      exact absurd ((mem_region_iff h3 hn hs p).mpr fun a b hab => ((h a b hab).resolve_left (by simp)).le) hr
    | cons e es ih =>
      obtain ⟨a, b⟩ := e
      intro h1 h2
      have hab := h1 a b (by simp)
      have hne := isEdge_ne h3 hn hab
      obtain ⟨l, hl⟩ := line_of_regular (regular_zero a b) hne
      have hon := (C40_location a b 0 0 l le_rfl hl (regular_zero a b) p).1
      rw [lineGap_le_zero hne] at hon
      simp only [Polygon.edgeLoop, hl, bind, Except.bind]
      by_cases hx : cross a b p = 0
      · rw [if_pos (hon.mpr hx)]
        have hno : ¬ 0 < cross a b p * cross a b ref := by rw [hx, zero_mul]; exact lt_irrefl _
        by_cases hvx : a.1 = b.1
        · have hpx : p.1 = a.1 := by
            unfold cross at hx
            rw [hvx, sub_self, zero_mul, zero_sub, neg_eq_zero] at hx
            have hy : b.2 - a.2 ≠ 0 := fun hy => hne (Prod.ext hvx (by linarith))
            have := (mul_eq_zero.mp hx).resolve_left hy
            linarith
          rw [if_pos (by rw [← hvx, hpx, min_self, max_self]; exact ⟨le_rfl, le_rfl⟩), if_pos (.inl ⟨hvx, hpx⟩)]
          rfl
        · have hin : ¬ (min a.1 b.1 ≤ p.1 ∧ p.1 ≤ max a.1 b.1) := fun hin =>
            hb ⟨a, b, hab, (mem_segment_of_x hvx hx).mpr hin⟩
          rw [if_neg hin, if_neg]
          · rfl
          · rintro (h | h)
            · exact hvx h.1
            · exact hno h.1
      · rw [if_neg (fun h => hx (hon.mp h))]
        have hgap : 0 < lineGap a b p := by
          by_contra h
          exact hx ((lineGap_le_zero hne p).mp (not_lt.mp h))
        have hxr : cross a b ref ≠ 0 := fun h =>
          hrefb ⟨a, b, hab, (mem_segment_iff h3 hn hs href hab).mpr h⟩
        have hgapr : 0 < lineGap a b ref := by
          by_contra h
          exact hxr ((lineGap_le_zero hne ref).mp (not_lt.mp h))
        have hrefpos : 0 < s * cross a b ref :=
          lt_of_le_of_ne ((mem_region_iff h3 hn hs ref).mp href a b hab)
            (Ne.symm (mul_ne_zero hs0 hxr))
        have hagree := sides_agree a b 0 l le_rfl hne hl (regular_zero a b) p ref hgap hgapr
        have hnv : ¬ (a.1 = b.1 ∧ p.1 = a.1) := fun h => hx (hvcross a b h.1 h.2)
        by_cases heq : l.locationRelation p 0 = l.locationRelation ref 0
        · rw [if_neg (not_not.mpr heq), ih (fun a b h => h1 a b (by simp [h]))]
          · have e : StopsAtVertical p ref ((a, b) :: es) ↔ StopsAtVertical p ref es := by
              constructor
              · rintro (h | h)
                · exact absurd h hnv
                · exact h.2
              · intro h
                exact .inr ⟨hagree.mp heq, h⟩
            simp only [e]
          · intro a' b' h'
            rcases h2 a' b' h' with h | h
            · rcases List.mem_cons.mp h with h | h
              · cases h
                have h0 := hagree.mp heq
                rw [mul_sign_pos hs1 hrefpos] at h0
                exact .inr h0
              · exact .inl h
            · exact .inr h
        · rw [if_pos heq, if_neg]
          · rfl
          · rintro (h | h)
            · exact hnv h
            · exact heq (hagree.mpr h.1)
  rw [main _ (fun a b h => (mem_edges_iff vs a b).mp h) (fun a b h => .inl ((mem_edges_iff vs a b).mpr h))]
  simp only [firstStops_iff]

/-- Non-vacuity: for the unit square listed from the left edge on, the point (0, 5) stops at a vertical edge; (5, 0) does
not: the left edge, which comes first, has it on the inner side, and the second edge does too, but the third one, which is
vertical, has it on the outer side. -/
example : ConvexPolygon unitSquare ∧ FirstStopsAtVertical unitSquare (0, 5) (1 / 2, 1 / 2) ∧
    ¬ FirstStopsAtVertical unitSquare (5, 0) (1 / 2, 1 / 2) := by
  refine ⟨unitSquare_convex, ⟨0, (0, 0), (0, 1), ⟨rfl, rfl⟩, rfl, rfl, by simp⟩, ?_⟩
  rw [firstStops_iff]
  have : Polygon.edges unitSquare = [((0, 0), (0, 1)), ((0, 1), (1, 1)), ((1, 1), (1, 0)), ((1, 0), (0, 0))] := rfl
  rw [this]
  simp [StopsAtVertical]

end Verif
