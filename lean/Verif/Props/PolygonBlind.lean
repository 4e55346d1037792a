import Verif.Props.Polygon
/-!
# C42: exactly which points are classified wrongly
-/

namespace Verif

open Classical Geo

/-- The points that `LocationRelation` misreports: `p` is on the line of a vertical edge
`vs[i] -> vs[i + 1]` but not on the edge itself, and it is on the same side as the reference point of
each of the edges tested before. -/
def BlindSpot (vs : List Pt) (ref p : Pt) : Prop :=
  ∃ i a b, vs[i]? = some a ∧ vs[(i + 1) % vs.length]? = some b ∧ a.1 = b.1 ∧ p.1 = a.1 ∧
    p ∉ segment ℝ a b ∧
    ∀ j < i, ∀ a' b', vs[j]? = some a' → vs[(j + 1) % vs.length]? = some b' →
      0 < cross a' b' p * cross a' b' ref

/-- the same, for the remaining edges of the loop -/
def BlindIn (p ref : Pt) (es : List (Pt × Pt)) : Prop :=
  ∃ (i : ℕ) (e : Pt × Pt), es[i]? = some e ∧ e.1.1 = e.2.1 ∧ p.1 = e.1.1 ∧ p ∉ segment ℝ e.1 e.2 ∧
    ∀ j < i, ∀ e', es[j]? = some e' → 0 < cross e'.1 e'.2 p * cross e'.1 e'.2 ref

theorem blindIn_cons_pos {p ref : Pt} {e : Pt × Pt} {es : List (Pt × Pt)}
    (hx : cross e.1 e.2 p ≠ 0) :
    BlindIn p ref (e :: es) ↔ 0 < cross e.1 e.2 p * cross e.1 e.2 ref ∧ BlindIn p ref es := by
  constructor
  · rintro ⟨i, e', h1, h2, h3, h4, h5⟩
    cases i with
    | zero =>
      cases h1
      exact absurd (by unfold cross; rw [h2, sub_self, zero_mul, h3, h2, sub_self, mul_zero, sub_self]) hx
    | succ i =>
      refine ⟨h5 0 (by omega) e rfl, i, e', by simpa using h1, h2, h3, h4, ?_⟩
      intro j hj e'' he
      exact h5 (j + 1) (by omega) e'' (by simpa using he)
  · rintro ⟨h0, i, e', h1, h2, h3, h4, h5⟩
    refine ⟨i + 1, e', by simpa using h1, h2, h3, h4, ?_⟩
    intro j hj e'' he
    cases j with
    | zero => cases he; exact h0
    | succ j => exact h5 j (by omega) e'' (by simpa using he)

theorem blindIn_cons_zero {p ref : Pt} {e : Pt × Pt} {es : List (Pt × Pt)} (hne : e.1 ≠ e.2)
    (hx : cross e.1 e.2 p = 0) :
    BlindIn p ref (e :: es) ↔ e.1.1 = e.2.1 ∧ p ∉ segment ℝ e.1 e.2 := by
  constructor
  · rintro ⟨i, e', h1, h2, h3, h4, h5⟩
    cases i with
    | zero => cases h1; exact ⟨h2, h4⟩
    | succ i =>
      have := h5 0 (by omega) e rfl
      rw [hx, zero_mul] at this
      exact absurd this (lt_irrefl _)
  · rintro ⟨h1, h2⟩
    refine ⟨0, e, rfl, h1, ?_, h2, fun j hj => absurd hj (by omega)⟩
    unfold cross at hx
    rw [h1, sub_self, zero_mul, zero_sub, neg_eq_zero] at hx
    have hy : e.2.2 - e.1.2 ≠ 0 := fun hy => hne (Prod.ext h1 (by linarith))
    have := (mul_eq_zero.mp hx).resolve_left hy
    linarith

theorem blindIn_edges (vs : List Pt) (ref p : Pt) :
    BlindIn p ref (Polygon.edges vs) ↔ BlindSpot vs ref p := by
  have key : ∀ i a b, (Polygon.edges vs)[i]? = some (a, b) ↔
      vs[i]? = some a ∧ vs[(i + 1) % vs.length]? = some b := by
    intro i a b
    unfold Polygon.edges
    rw [List.getElem?_zip_eq_some]
    refine and_congr_right fun h => ?_
    rw [List.getElem?_rotate (List.getElem?_eq_some_iff.mp h).1]
  constructor
  · rintro ⟨i, ⟨a, b⟩, h1, h2, h3, h4, h5⟩
    obtain ⟨ha, hb⟩ := (key i a b).mp h1
    exact ⟨i, a, b, ha, hb, h2, h3, h4, fun j hj a' b' ha' hb' =>
      h5 j hj (a', b') ((key j a' b').mpr ⟨ha', hb'⟩)⟩
  · rintro ⟨i, a, b, ha, hb, h2, h3, h4, h5⟩
    exact ⟨i, (a, b), (key i a b).mpr ⟨ha, hb⟩, h2, h3, h4, fun j hj e he =>
      h5 j hj e.1 e.2 ((key j e.1 e.2).mp he).1 ((key j e.1 e.2).mp he).2⟩

/-- **C42** (exactly when, tolerance 0).  For every convex polygon, interior reference point and point:
a point outside the blind spot is classified correctly; a point in the blind spot is outside the polygon
and is reported as BOUNDARY.  So the classification is correct exactly off the blind spot, and the only
possible error is BOUNDARY instead of OUTSIDE. -/
theorem C42_exactly_when (vs : List Pt) (hc : ConvexPolygon vs) (p ref : Pt)
    (href : ref ∈ region vs) (hrefb : ref ∉ boundary vs) :
    (¬ BlindSpot vs ref p → Polygon.locationRelation ⟨vs⟩ p ref 0 = .ok
      (if p ∈ vs then .corner
       else if p ∈ boundary vs then .boundary
       else if p ∈ region vs then .inside else .outside)) ∧
    (BlindSpot vs ref p →
      p ∉ region vs ∧ Polygon.locationRelation ⟨vs⟩ p ref 0 = .ok .boundary) := by
  obtain ⟨h3, hn, s, hs1, hs⟩ := hc
  have hs0 : s ≠ 0 := by rcases hs1 with rfl | rfl <;> norm_num
  have hout : BlindSpot vs ref p → p ∉ region vs := by
    rintro ⟨i, a, b, ha, hb, hv, hp, hseg, -⟩ hr
    refine hseg ((mem_segment_iff h3 hn hs hr ⟨i, ha, hb⟩).mpr ?_)
    unfold cross
    rw [hv, sub_self, zero_mul, hp, hv, sub_self, mul_zero, sub_self]
  have hmemr : p ∈ vs → p ∈ region vs := fun h => subset_convexHull ℝ {q | q ∈ vs} h
  have main : p ∉ vs → ∀ es : List (Pt × Pt), (∀ a b, (a, b) ∈ es → IsEdge vs a b) →
      (∀ a b, IsEdge vs a b → (a, b) ∈ es ∨ 0 < s * cross a b p) →
      Polygon.edgeLoop p ref 0 es = .ok (if BlindIn p ref es then .boundary
        else if p ∈ boundary vs then .boundary
        else if p ∈ region vs then .inside else .outside) := by
    intro hcor es
    induction es with
    | nil =>
      intro _ h
      have h' : ∀ a b, IsEdge vs a b → 0 < s * cross a b p := fun a b hab =>
        (h a b hab).resolve_left (by simp)
      have hreg : p ∈ region vs := (mem_region_iff h3 hn hs p).mpr fun a b hab => (h' a b hab).le
      have hb : p ∉ boundary vs := by
        rintro ⟨a, b, hab, hseg⟩
        have := (mem_segment_iff h3 hn hs hreg hab).mp hseg
        have h2 := h' a b hab
        rw [this, mul_zero] at h2
        exact lt_irrefl _ h2
      have hbl : ¬ BlindIn p ref [] := by rintro ⟨i, e, h, -⟩; simp at h
      simp [Polygon.edgeLoop, hreg, hb, hbl]
    | cons e es ih =>
      obtain ⟨a, b⟩ := e
      intro h1 h2
      have hab := h1 a b (by simp)
      have hne := isEdge_ne h3 hn hab
      obtain ⟨l, hl⟩ := line_of_regular (regular_zero a b) hne
      have hon := (C40_location a b 0 0 l le_rfl hl (regular_zero a b) p).1
      rw [lineGap_le_zero hne] at hon
      simp only [Polygon.edgeLoop, hl, bind, Except.bind]
      by_cases hx : cross a b p = 0
      · rw [if_pos (hon.mpr hx)]
        have hbl := blindIn_cons_zero (ref := ref) (es := es) (e := (a, b)) hne hx
        simp only at hbl
        by_cases hvx : a.1 = b.1
        · have hpx : p.1 = a.1 := by
            unfold cross at hx
            rw [hvx, sub_self, zero_mul, zero_sub, neg_eq_zero] at hx
            have hy : b.2 - a.2 ≠ 0 := fun hy => hne (Prod.ext hvx (by linarith))
            have := (mul_eq_zero.mp hx).resolve_left hy
            linarith
          rw [if_pos (by rw [← hvx, hpx, min_self, max_self]; exact ⟨le_rfl, le_rfl⟩)]
          by_cases hseg : p ∈ segment ℝ a b
          · have hb : p ∈ boundary vs := ⟨a, b, hab, hseg⟩
            rw [if_pos hb, ite_self]
            rfl
          · rw [if_pos (hbl.mpr ⟨hvx, hseg⟩)]
            rfl
        · rw [if_neg (fun h => hvx (hbl.mp h).1)]
          by_cases hin : min a.1 b.1 ≤ p.1 ∧ p.1 ≤ max a.1 b.1
          · have hb : p ∈ boundary vs := ⟨a, b, hab, (mem_segment_of_x hvx hx).mpr hin⟩
            rw [if_pos hin, if_pos hb]
            rfl
          · have hr : p ∉ region vs := fun hr =>
              hin ((mem_segment_of_x hvx hx).mp ((mem_segment_iff h3 hn hs hr hab).mpr hx))
            have hb : p ∉ boundary vs := fun h => hr (boundary_subset_region h)
            rw [if_neg hin, if_neg hb, if_neg hr]
            rfl
      · rw [if_neg (fun h => hx (hon.mp h))]
        have hgap : 0 < lineGap a b p := by
          by_contra h
          exact hx ((lineGap_le_zero hne p).mp (not_lt.mp h))
        have hxr : cross a b ref ≠ 0 := fun h =>
          hrefb ⟨a, b, hab, (mem_segment_iff h3 hn hs href hab).mpr h⟩
        have hgapr : 0 < lineGap a b ref := by
          by_contra h
          exact hxr ((lineGap_le_zero hne ref).mp (not_lt.mp h))
        have hrefpos : 0 < s * cross a b ref :=
          lt_of_le_of_ne ((mem_region_iff h3 hn hs ref).mp href a b hab)
            (Ne.symm (mul_ne_zero hs0 hxr))
        have hagree := sides_agree a b 0 l le_rfl hne hl (regular_zero a b) p ref hgap hgapr
        have hbl := blindIn_cons_pos (ref := ref) (es := es) (e := (a, b)) hx
        simp only at hbl
        by_cases heq : l.locationRelation p 0 = l.locationRelation ref 0
        · rw [if_neg (not_not.mpr heq)]
          have hpos := hagree.mp heq
          have e1 : BlindIn p ref ((a, b) :: es) = BlindIn p ref es :=
            propext (hbl.trans (and_iff_right hpos))
          rw [mul_sign_pos hs1 hrefpos] at hpos
          simp only [e1]
          apply ih (fun a b h => h1 a b (by simp [h]))
          intro a' b' h'
          rcases h2 a' b' h' with h | h
          · rcases List.mem_cons.mp h with h | h
            · cases h
              exact .inr hpos
            · exact .inl h
          · exact .inr h
        · rw [if_pos heq, if_neg (fun h => heq (hagree.mpr (hbl.mp h).1))]
          rw [mul_sign_pos hs1 hrefpos] at hagree
          have hr : p ∉ region vs := fun hp => by
            have := (mem_region_iff h3 hn hs p).mp hp a b hab
            exact heq (hagree.mpr (lt_of_le_of_ne this (Ne.symm (mul_ne_zero hs0 hx))))
          have hb : p ∉ boundary vs := fun h => hr (boundary_subset_region h)
          rw [if_neg hb, if_neg hr]
          rfl
  have hrun : p ∉ vs → Polygon.locationRelation ⟨vs⟩ p ref 0 = .ok (if BlindSpot vs ref p then .boundary
        else if p ∈ boundary vs then .boundary
        else if p ∈ region vs then .inside else .outside) := by
    intro hcor
    unfold Polygon.locationRelation
    have hcor' : ¬ ∃ v ∈ vs, euclid v p ≤ 0 := by
      rintro ⟨v, hv, h⟩
      rw [euclid_le_zero] at h
      exact hcor (h ▸ hv)
    rw [if_neg hcor', main hcor _ (fun a b h => (mem_edges_iff vs a b).mp h)
      (fun a b h => .inl ((mem_edges_iff vs a b).mpr h))]
    simp only [blindIn_edges]
  refine ⟨fun hb => ?_, fun hb => ⟨hout hb, ?_⟩⟩
  · by_cases hcor : p ∈ vs
    · unfold Polygon.locationRelation
      rw [if_pos ⟨p, hcor, (euclid_le_zero _ _).mpr rfl⟩, if_pos hcor]
    · rw [hrun hcor, if_neg hb, if_neg hcor]
  · rw [hrun fun h => hout hb (hmemr h), if_pos hb]

/-- The unit square: (0, 5) is in the blind spot of the edge (0, 0) -> (0, 1), which is tested first;
(1, 5), on the line of the edge (1, 1) -> (1, 0), is not, because the edge (0, 1) -> (1, 1) is tested
before. -/
example : BlindSpot unitSquare (1 / 2, 1 / 2) (0, 5) ∧ ¬ BlindSpot unitSquare (1 / 2, 1 / 2) (1, 5) := by
  constructor
  · refine ⟨0, (0, 0), (0, 1), rfl, rfl, rfl, rfl, ?_, fun j hj => absurd hj (by omega)⟩
    rintro ⟨s, t, hs, ht, h, e⟩
    have := congrArg Prod.snd e
    simp at this
    linarith
  · rintro ⟨i, a, b, ha, hb, h1, h2, -, h4⟩
    match i with
    | 0 =>
      simp only [unitSquare, List.getElem?_cons_zero, Option.some.injEq] at ha
      rw [← ha] at h2
      norm_num at h2
    | 1 =>
      simp only [unitSquare, List.getElem?_cons_succ, List.getElem?_cons_zero, Option.some.injEq] at ha
      rw [← ha] at h2
      norm_num at h2
    | n + 2 =>
      have := h4 1 (by omega) (0, 1) (1, 1) rfl rfl
      norm_num [cross] at this

end Verif
