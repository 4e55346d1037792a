import Verif.Spec.Octahedron
import Mathlib.Analysis.Convex.Combination
import Mathlib.Topology.Instances.Real.Lemmas
import Mathlib.LinearAlgebra.Matrix.DotProduct
/-!
# The faces of the octahedron, and what is hidden
-/

namespace Verif.Oct

open Filter Topology

/-- The points by their numbers. -/
noncomputable def pt : Fin 7 → V3 := ![point0, point1, point2, point3, point4, point5, point6]

/-- The normals of the eight faces, `N i ⬝ x ≤ 1` in the solid. -/
noncomputable def N : Fin 8 → V3 := ![
  ![1, 0, 1 / Real.sqrt 2], ![1, 0, -(1 / Real.sqrt 2)], ![-1, 0, 1 / Real.sqrt 2], ![-1, 0, -(1 / Real.sqrt 2)],
  ![0, 1, 1 / Real.sqrt 2], ![0, 1, -(1 / Real.sqrt 2)], ![0, -1, 1 / Real.sqrt 2], ![0, -1, -(1 / Real.sqrt 2)]]

/-- The values of `N i` on the points. -/
def sgn : Fin 8 → Fin 7 → ℤ := ![
  ![0, 1, 1, -1, -1, 1, -1], ![0, 1, 1, -1, -1, -1, 1], ![0, -1, -1, 1, 1, 1, -1], ![0, -1, -1, 1, 1, -1, 1],
  ![0, -1, 1, 1, -1, 1, -1], ![0, -1, 1, 1, -1, -1, 1], ![0, 1, -1, -1, 1, 1, -1], ![0, 1, -1, -1, 1, -1, 1]]

theorem sgn_le : ∀ (i : Fin 8) (j : Fin 7), sgn i j ≤ 1 := by decide

theorem N_pt (i : Fin 8) (j : Fin 7) : N i ⬝ᵥ pt j = (sgn i j : ℝ) := by
  have h : (Real.sqrt 2)⁻¹ * Real.sqrt 2 = 1 := inv_mul_cancel₀ (by positivity)
  fin_cases i <;> fin_cases j <;>
    simp [N, pt, sgn, point0, point1, point2, point3, point4, point5, point6, dotProduct, Fin.sum_univ_three, h]

theorem N_self (i : Fin 8) : 0 < N i ⬝ᵥ N i := by
  have h : 0 < (Real.sqrt 2)⁻¹ * (Real.sqrt 2)⁻¹ := by positivity
  fin_cases i <;> simp [N, dotProduct, Fin.sum_univ_three] <;> linarith

/-- The solid of the script. -/
noncomputable def K : Set V3 := solid [point1, point2, point3, point4, point5, point6]

theorem le_one {x : V3} (hx : x ∈ K) (i : Fin 8) : N i ⬝ᵥ x ≤ 1 := by
  have hc : Convex ℝ {y : V3 | N i ⬝ᵥ y ≤ 1} := by
    intro y hy z hz a b ha hb hab
    simp only [Set.mem_ofPred_eq, dotProduct_add, dotProduct_smul, smul_eq_mul] at hy hz ⊢
    nlinarith
  refine convexHull_min (fun y hy => ?_) hc hx
  have hs : ∀ j : Fin 7, N i ⬝ᵥ pt j ≤ 1 := fun j => by
    rw [N_pt]
    exact_mod_cast sgn_le i j
  simp only [Set.mem_ofPred_eq, List.mem_cons, List.not_mem_nil, or_false] at hy
  rcases hy with rfl | rfl | rfl | rfl | rfl | rfl
  exacts [hs 1, hs 2, hs 3, hs 4, hs 5, hs 6]

theorem mem_of_lt {x : V3} (h : ∀ i, N i ⬝ᵥ x < 1) : x ∈ K := by
  have e : ∀ i, N i 0 * x 0 + N i 1 * x 1 + N i 2 * x 2 < 1 := fun i => by
    have := h i
    simpa [dotProduct, Fin.sum_univ_three] using this
  have e0 := e 0; have e1 := e 1; have e2 := e 2; have e3 := e 3
  have e4 := e 4; have e5 := e 5; have e6 := e 6; have e7 := e 7
  set z : ℝ := (1 / Real.sqrt 2) * x 2 with hz
  simp [N] at e0 e1 e2 e3 e4 e5 e6 e7
  rw [← one_div, ← hz] at e0 e1 e2 e3 e4 e5 e6 e7
  have hx2 : z * Real.sqrt 2 = x 2 := by
    rw [hz]
    field_simp
  set c : ℝ := |z| with hc
  have hcx : |x 0| < 1 - c := by
    rcases abs_cases z with ⟨h1, h2⟩ | ⟨h1, h2⟩ <;> rcases abs_cases (x 0) with ⟨h3, h4⟩ | ⟨h3, h4⟩ <;> linarith
  have hcy : |x 1| < 1 - c := by
    rcases abs_cases z with ⟨h1, h2⟩ | ⟨h1, h2⟩ <;> rcases abs_cases (x 1) with ⟨h3, h4⟩ | ⟨h3, h4⟩ <;> linarith
  have hr : 0 < 1 - c := (abs_nonneg _).trans_lt hcx
  have hne : 1 - c ≠ 0 := hr.ne'
  obtain ⟨a1, a2⟩ := abs_lt.1 hcx
  obtain ⟨b1, b2⟩ := abs_lt.1 hcy
  let w : Fin 6 → ℝ := ![(1 - c + x 0) * (1 - c - x 1) / (4 * (1 - c)), (1 - c + x 0) * (1 - c + x 1) / (4 * (1 - c)),
    (1 - c - x 0) * (1 - c + x 1) / (4 * (1 - c)), (1 - c - x 0) * (1 - c - x 1) / (4 * (1 - c)), (c + z) / 2, (c - z) / 2]
  have hw : ∀ i, 0 ≤ w i := by
    have p1 : 0 ≤ 1 - c + x 0 := by linarith
    have p2 : 0 ≤ 1 - c - x 0 := by linarith
    have p3 : 0 ≤ 1 - c + x 1 := by linarith
    have p4 : 0 ≤ 1 - c - x 1 := by linarith
    have p5 : 0 ≤ c + z := by linarith [neg_abs_le z]
    have p6 : 0 ≤ c - z := by linarith [le_abs_self z]
    intro i
    fin_cases i <;> simp only [w] <;> first | (show 0 ≤ _ / _; positivity)
  have hs : ∑ i, w i = 1 := by
    simp only [w, Fin.sum_univ_six]
    simp only [Matrix.cons_val]
    field_simp
    ring
  have := (convex_convexHull ℝ {p | p ∈ [point1, point2, point3, point4, point5, point6]}).sum_mem
    (t := Finset.univ) (w := w) (z := fun i => pt i.succ) (fun i _ => hw i) hs (fun i _ => subset_convexHull ℝ _ (by
      fin_cases i <;> simp [pt]))
  have ex : ∑ i, w i • pt i.succ = x := by
    ext a
    simp only [Fin.sum_univ_six, Finset.sum_apply, Pi.smul_apply, smul_eq_mul]
    fin_cases a <;> simp [w, pt, point1, point2, point3, point4, point5, point6]
    · field_simp
      ring
    · field_simp
      ring
    · rw [← hx2]
      ring
  rw [ex] at this
  exact this

theorem continuous_N (i : Fin 8) : Continuous fun x : V3 => N i ⬝ᵥ x := by
  unfold dotProduct
  fun_prop

theorem mem_interior_iff (x : V3) : x ∈ interior K ↔ ∀ i, N i ⬝ᵥ x < 1 := by
  constructor
  · intro hx i
    refine lt_of_le_of_ne (le_one (interior_subset hx) i) fun he => ?_
    have hcont : ContinuousAt (fun s : ℝ => x + s • N i) 0 := by fun_prop
    have hK : K ∈ 𝓝 (x + (0 : ℝ) • N i) := by
      rw [zero_smul, add_zero]
      exact mem_interior_iff_mem_nhds.1 hx
    have h1 : ∀ᶠ s : ℝ in 𝓝[>] 0, x + s • N i ∈ K := (hcont.eventually hK).filter_mono nhdsWithin_le_nhds
    obtain ⟨s, hs, hs0⟩ := (h1.and self_mem_nhdsWithin).exists
    have := le_one hs i
    rw [dotProduct_add, dotProduct_smul, he, smul_eq_mul] at this
    have := mul_pos (show 0 < s from hs0) (N_self i)
    linarith
  · intro h
    refine mem_interior.2 ⟨{y | ∀ i, N i ⬝ᵥ y < 1}, fun y hy => mem_of_lt hy, ?_, h⟩
    rw [show {y : V3 | ∀ i, N i ⬝ᵥ y < 1} = ⋂ i, {y | N i ⬝ᵥ y < 1} by ext; simp]
    exact isOpen_iInter_of_finite fun i => isOpen_lt (continuous_N i) continuous_const

/-- What is hidden: the points all of whose faces are turned away. -/
theorem hiddenAt_iff {x d : V3} (hx : ∀ i, N i ⬝ᵥ x ≤ 1) :
    HiddenAt K d x ↔ ∀ i, N i ⬝ᵥ x = 1 → N i ⬝ᵥ d < 0 := by
  constructor
  · rintro ⟨s, hs, h⟩ i hi
    have := (mem_interior_iff _).1 h i
    rw [dotProduct_add, dotProduct_smul, hi, smul_eq_mul] at this
    by_contra hc
    have := mul_nonneg hs.le (not_lt.1 hc)
    linarith
  · intro h
    have : ∀ᶠ s : ℝ in 𝓝[>] 0, ∀ i, N i ⬝ᵥ (x + s • d) < 1 := by
      refine eventually_all.2 fun i => ?_
      rcases (hx i).eq_or_lt with he | hl
      · refine eventually_mem_nhdsWithin.mono fun s hs => ?_
        rw [dotProduct_add, dotProduct_smul, he, smul_eq_mul]
        have := mul_neg_of_pos_of_neg (show 0 < s from hs) (h i he)
        linarith
      · have hc : ContinuousAt (fun s : ℝ => N i ⬝ᵥ (x + s • d)) 0 := by
          refine (continuous_N i).continuousAt.comp ?_
          fun_prop
        refine (hc.eventually (gt_mem_nhds ?_)).filter_mono nhdsWithin_le_nhds
        simpa using hl
    obtain ⟨s, hs, hs0⟩ := (this.and self_mem_nhdsWithin).exists
    exact ⟨s, hs0, (mem_interior_iff _).2 hs⟩

/-- For a point of a line between two of the points. -/
theorem hiddenAt_line {p q : Fin 7} {x d : V3} (hx : x ∈ openSegment ℝ (pt p) (pt q)) :
    HiddenAt K d x ↔ ∀ i, sgn i p = 1 → sgn i q = 1 → N i ⬝ᵥ d < 0 := by
  obtain ⟨a, b, ha, hb, hab, rfl⟩ := hx
  have hs : ∀ i (j : Fin 7), (sgn i j : ℝ) ≤ 1 := fun i j => by
    exact_mod_cast sgn_le i j
  have e : ∀ i, N i ⬝ᵥ (a • pt p + b • pt q) = a * sgn i p + b * sgn i q := fun i => by
    rw [dotProduct_add, dotProduct_smul, dotProduct_smul, N_pt, N_pt, smul_eq_mul, smul_eq_mul]
  rw [hiddenAt_iff fun i => by
    rw [e]
    nlinarith [hs i p, hs i q]]
  refine forall_congr' fun i => ?_
  rw [e]
  constructor
  · intro h h1 h2
    exact h (by rw [h1, h2]; push_cast; linarith)
  · intro h h1
    refine h ?_ ?_
    · have : (sgn i p : ℝ) = 1 := by nlinarith [hs i p, hs i q]
      exact_mod_cast this
    · have : (sgn i q : ℝ) = 1 := by nlinarith [hs i p, hs i q]
      exact_mod_cast this

/-- The lines by the numbers of their ends. -/
def table : List (Fin 7 × Fin 7 × Bool) := [(1, 2, false), (2, 3, false), (3, 4, true), (4, 1, false), (0, 1, true),
  (0, 2, true), (0, 3, true), (0, 4, true), (0, 5, true), (0, 6, true), (5, 1, false), (5, 2, false), (5, 3, false),
  (5, 4, false), (6, 1, false), (6, 2, false), (6, 3, true), (6, 4, true)]

/-- A line by the numbers of its ends. -/
noncomputable def lineOf (t : Fin 7 × Fin 7 × Bool) : Line :=
  ⟨pt t.1, pt t.2.1, t.2.2, if t.1 = 0 then lineWidth / 2 else lineWidth, t.1 = 0⟩

theorem lines_eq : lines = table.map lineOf := by
  simp [lines, table, lineOf, pt]

/-- The numbers of the opposite points. -/
def opp : Fin 7 → Fin 7 := ![0, 3, 4, 1, 2, 6, 5]

theorem pt_opp (j : Fin 7) : pt (opp j) = -pt j := by
  fin_cases j <;> simp [pt, opp, point0, point1, point2, point3, point4, point5, point6]

theorem pt_inj : Function.Injective pt := by
  intro i j h
  have hs : ∀ k, sgn k i = sgn k j := fun k => by
    have := congrArg (N k ⬝ᵥ ·) h
    simp only [N_pt] at this
    exact_mod_cast this
  clear h
  revert i j
  decide

theorem mem_points (p : V3) :
    p ∈ [point0] ++ [point1, point2, point3, point4, point5, point6] ↔ ∃ j, p = pt j := by
  simp only [List.cons_append, List.nil_append, List.mem_cons, List.not_mem_nil, or_false]
  constructor
  · rintro (rfl | rfl | rfl | rfl | rfl | rfl | rfl)
    exacts [⟨0, rfl⟩, ⟨1, rfl⟩, ⟨2, rfl⟩, ⟨3, rfl⟩, ⟨4, rfl⟩, ⟨5, rfl⟩, ⟨6, rfl⟩]
  · rintro ⟨j, rfl⟩
    fin_cases j <;> simp [pt]

theorem mem_corners (p : V3) :
    p ∈ [point1, point2, point3, point4, point5, point6] ↔ ∃ j, j ≠ 0 ∧ p = pt j := by
  simp only [List.mem_cons, List.not_mem_nil, or_false]
  constructor
  · rintro (rfl | rfl | rfl | rfl | rfl | rfl)
    exacts [⟨1, by decide, rfl⟩, ⟨2, by decide, rfl⟩, ⟨3, by decide, rfl⟩, ⟨4, by decide, rfl⟩, ⟨5, by decide, rfl⟩,
      ⟨6, by decide, rfl⟩]
  · rintro ⟨j, h0, rfl⟩
    fin_cases j <;> simp [pt] at h0 ⊢

theorem pt_zero : pt 0 = 0 := by
  ext a
  fin_cases a <;> simp [pt, point0]

theorem regular : RegularOctahedron [point1, point2, point3, point4, point5, point6] (Real.sqrt 2) 2 := by
  have h2 : Real.sqrt 2 ^ 2 = 2 := Real.sq_sqrt (by norm_num)
  refine ⟨rfl, ?_, fun p hp => ?_, fun p hp q hq h1 h3 => ?_⟩
  · have : [point1, point2, point3, point4, point5, point6] = [1, 2, 3, 4, 5, 6].map pt := by simp [pt]
    rw [this]
    exact List.Nodup.map pt_inj (by decide)
  · obtain ⟨j, h0, rfl⟩ := (mem_corners p).1 hp
    refine ⟨?_, (mem_corners _).2 ⟨opp j, ?_, (pt_opp j).symm⟩⟩
    · unfold dist3
      congr 1
      fin_cases j <;> simp [pt, point1, point2, point3, point4, point5, point6] at h0 ⊢ <;> norm_num
    · clear hp
      revert j
      decide
  · obtain ⟨i, hi, rfl⟩ := (mem_corners p).1 hp
    obtain ⟨j, hj, rfl⟩ := (mem_corners q).1 hq
    rw [pt_inj.ne_iff] at h1
    rw [← pt_opp, pt_inj.ne_iff] at h3
    have h4 : dist3 (pt i) (pt j) = Real.sqrt 4 := by
      unfold dist3
      congr 1
      fin_cases i <;> fin_cases j <;> simp [opp] at hi hj h1 h3 <;>
        simp [pt, point1, point2, point3, point4, point5, point6] <;> norm_num
    rw [h4, show (4 : ℝ) = 2 ^ 2 by norm_num, Real.sqrt_sq (by norm_num)]

open Classical in
theorem drawsEdges (az el : ℤ) : DrawsEdges (drawing az el) := by
  refine ⟨?_, fun l hl => ?_, fun p hp q hq h1 h2 => ?_⟩
  · rw [← pt_zero]
    rfl
  · have hl' : l ∈ table.map lineOf := lines_eq ▸ hl
    obtain ⟨t, ht, rfl⟩ := List.mem_map.1 hl'
    have h : t.1 ≠ t.2.1 ∧ t.1 ≠ opp t.2.1 ∧ t.2.1 ≠ 0 := by
      clear hl hl'
      revert t
      decide
    refine ⟨(mem_points _).2 ⟨_, rfl⟩, (mem_points _).2 ⟨_, rfl⟩, pt_inj.ne h.1, ?_, ?_, ?_⟩
    · show pt t.1 ≠ -pt t.2.1
      rw [← pt_opp]
      exact pt_inj.ne h.2.1
    · show decide (t.1 = 0) = true ↔ pt t.1 = 0 ∨ pt t.2.1 = 0
      rw [← pt_zero, pt_inj.eq_iff, pt_inj.eq_iff, decide_eq_true_iff]
      exact ⟨Or.inl, fun h' => h'.resolve_right h.2.2⟩
    · show (if t.1 = 0 then lineWidth / 2 else lineWidth) = if decide (t.1 = 0) = true then 4 else 8
      by_cases h0 : t.1 = 0 <;> simp [h0, lineWidth]; norm_num
  · obtain ⟨i, rfl⟩ := (mem_points p).1 hp
    obtain ⟨j, rfl⟩ := (mem_points q).1 hq
    rw [pt_inj.ne_iff] at h1
    rw [← pt_opp, pt_inj.ne_iff] at h2
    show (lines.filter fun l => l.Joins (pt i) (pt j)).length = 1
    have hf : ((fun l : Line => decide (l.Joins (pt i) (pt j))) ∘ lineOf) =
        fun t => decide ((t.1 = i ∧ t.2.1 = j) ∨ (t.1 = j ∧ t.2.1 = i)) := by
      funext t
      simp only [Function.comp, Line.Joins, lineOf, pt_inj.eq_iff]
    rw [lines_eq, List.filter_map, List.length_map, hf]
    clear hp hq hf
    revert i j
    decide

theorem dashesRight_iff (az el : ℤ) (d : V3) :
    DashesRight (drawing az el) d ↔ |d 1| < d 2 / Real.sqrt 2 ∧ d 2 / Real.sqrt 2 < d 0 := by
  have key : DashesRight (drawing az el) d ↔
      ∀ t ∈ table, (t.2.2 = true ↔ ∀ i, sgn i t.1 = 1 → sgn i t.2.1 = 1 → N i ⬝ᵥ d < 0) := by
    unfold DashesRight
    simp only [drawing, lines_eq, List.forall_mem_map]
    refine forall₂_congr fun t ht => ?_
    constructor
    · intro h
      have hm : (1 / 2 : ℝ) • pt t.1 + (1 / 2 : ℝ) • pt t.2.1 ∈ openSegment ℝ (pt t.1) (pt t.2.1) :=
        ⟨1 / 2, 1 / 2, by norm_num, by norm_num, by norm_num, rfl⟩
      exact (h _ hm).trans (hiddenAt_line hm)
    · intro h x hx
      exact h.trans (hiddenAt_line hx).symm
  rw [key]
  have e : ∀ i, N i ⬝ᵥ d = N i 0 * d 0 + N i 1 * d 1 + N i 2 * d 2 := fun i => by
    simp [dotProduct, Fin.sum_univ_three]
  set z : ℝ := d 2 / Real.sqrt 2 with hz
  have ez : (Real.sqrt 2)⁻¹ * d 2 = z := by
    rw [hz]
    ring
  simp only [e, Fin.forall_fin_succ (n := 7), Fin.forall_fin_succ, table, List.forall_mem_cons, List.not_mem_nil]
  simp [sgn, N, ez]
  constructor
  · rintro h
    rw [abs_lt]
    constructorm* _ ∧ _ <;> grind
  · rintro ⟨h1, h2⟩
    obtain ⟨h3, h4⟩ := abs_lt.1 h1
    have : 0 < z := (abs_nonneg _).trans_lt h1
    constructorm* _ ∧ _ <;> grind

end Verif.Oct
