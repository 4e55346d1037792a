import Verif.Props.PolygonBlind
/-!
# C42: when the tolerance does not matter
-/

namespace Verif

open Classical Geo

theorem location_tol {a b : Pt} {tol : ℝ} {l : Line2D} (h0 : 0 ≤ tol) (hl : Line2D.init a b tol = .ok l)
    (hr : Regular tol a b) (p : Pt) (hp : lineGap a b p = 0 ∨ tol < lineGap a b p) :
    l.locationRelation p tol = l.locationRelation p 0 := by
  have e1 := (C40_location a b tol tol l h0 hl hr p).1
  have e2 := (C40_location a b tol 0 l h0 hl hr p).1
  have hg : lineGap a b p ≤ tol ↔ lineGap a b p ≤ 0 := by
    rcases hp with h | h
    · rw [h]; exact ⟨fun _ => le_rfl, fun _ => h0⟩
    · exact ⟨fun h' => absurd h' (not_le.mpr h), fun h' => h'.trans h0⟩
  have e : l.locationRelation p tol = .on ↔ l.locationRelation p 0 = .on := by rw [e1, e2, hg]
  by_cases hon : l.locationRelation p tol = .on
  · rw [hon, e.mp hon]
  · have hon0 := fun h => hon (e.mpr h)
    unfold Line2D.locationRelation at hon hon0 ⊢
    split_ifs at hon hon0 ⊢ <;> simp_all

theorem init_tol {a b : Pt} {tol : ℝ} (hr : Regular tol a b) (h0 : 0 ≤ tol) :
    Line2D.init a b tol = Line2D.init a b 0 := by
  have key : ∀ x y : ℝ, (y = x ∨ tol < |y - x|) → (|y - x| ≤ tol ↔ |y - x| ≤ 0) := by
    intro x y h
    rcases h with rfl | h
    · simp [h0]
    · exact ⟨fun h' => absurd h' (not_le.mpr h), fun h' => h'.trans h0⟩
  have k1 := key _ _ hr.1
  have k2 := key _ _ hr.2
  unfold Line2D.init
  simp only [k1, k2]

/-- **C42 (tolerance).** The tolerance does not change the answer as long as every quantity compared with
it is zero or larger than it: the components of the edges, the distances of the point to the vertices and
the gaps of the point and of the reference point to the edge lines. -/
theorem C42_tolerance (vs : List Pt) (tol : ℝ) (h0 : 0 ≤ tol) (p ref : Pt)
    (hreg : ∀ a b, IsEdge vs a b → Regular tol a b)
    (hv : ∀ v ∈ vs, v = p ∨ tol < euclid v p)
    (hp : ∀ a b, IsEdge vs a b → lineGap a b p = 0 ∨ tol < lineGap a b p)
    (href : ∀ a b, IsEdge vs a b → lineGap a b ref = 0 ∨ tol < lineGap a b ref) :
    Polygon.locationRelation ⟨vs⟩ p ref tol = Polygon.locationRelation ⟨vs⟩ p ref 0 := by
  have hc : (∃ v ∈ vs, euclid v p ≤ tol) ↔ ∃ v ∈ vs, euclid v p ≤ 0 := by
    constructor
    · rintro ⟨v, hvm, h⟩
      rcases hv v hvm with rfl | h'
      · exact ⟨v, hvm, (euclid_le_zero _ _).mpr rfl⟩
      · exact absurd h (not_le.mpr h')
    · rintro ⟨v, hvm, h⟩
      exact ⟨v, hvm, h.trans h0⟩
  unfold Polygon.locationRelation
  simp only [hc]
  split_ifs
  · rfl
  have main : ∀ es : List (Pt × Pt), (∀ e ∈ es, IsEdge vs e.1 e.2) →
      Polygon.edgeLoop p ref tol es = Polygon.edgeLoop p ref 0 es := by
    intro es
    induction es with
    | nil => intro _; rfl
    | cons e es ih =>
      obtain ⟨a, b⟩ := e
      intro h
      have hab : IsEdge vs a b := h (a, b) (by simp)
      have hih := ih fun e he => h e (by simp [he])
      simp only [Polygon.edgeLoop]
      rw [← init_tol (hreg a b hab) h0]
      cases hl : Line2D.init a b tol with
      | error x => rfl
      | ok l =>
        simp only [bind, Except.bind]
        rw [location_tol h0 hl (hreg a b hab) p (hp a b hab),
          location_tol h0 hl (hreg a b hab) ref (href a b hab), hih]
  exact main _ fun e he => (mem_edges_iff vs e.1 e.2).mp he

/-- The unit square, its centre and a point of an edge meet the hypotheses for the default tolerance. -/
example : (∀ a b, IsEdge unitSquare a b → Regular defaultTol a b) ∧
    (∀ v ∈ unitSquare, v = (1 / 2, 0) ∨ defaultTol < euclid v (1 / 2, 0)) ∧
    (∀ a b, IsEdge unitSquare a b → lineGap a b (1 / 2, 0) = 0 ∨ defaultTol < lineGap a b (1 / 2, 0)) := by
  refine ⟨?_, ?_, ?_⟩
  · intro a b h
    rcases isEdge_cases4 h with ⟨rfl, rfl⟩ | ⟨rfl, rfl⟩ | ⟨rfl, rfl⟩ | ⟨rfl, rfl⟩ <;>
      norm_num [Regular, defaultTol]
  · intro v hv
    have hv' : v = (0, 0) ∨ v = (0, 1) ∨ v = (1, 1) ∨ v = (1, 0) := by simpa [unitSquare] using hv
    right
    unfold euclid
    rw [Real.lt_sqrt (by norm_num [defaultTol])]
    rcases hv' with rfl | rfl | rfl | rfl <;> norm_num [defaultTol]
  · intro a b h
    rcases isEdge_cases4 h with ⟨rfl, rfl⟩ | ⟨rfl, rfl⟩ | ⟨rfl, rfl⟩ | ⟨rfl, rfl⟩ <;>
      norm_num [lineGap, cross, defaultTol]

end Verif
