import Verif.Props.PolygonBlind
import Verif.Props.LatticeSymmetryDB
import Verif.Spec.PolygonZone
/-!
# Polygons through points given by integer coefficients
-/

namespace Verif.LDB

open Verif.Latt Verif.Geo

/-- determinant of the two reciprocal vectors -/
def det2 (B : Fin 2 → Latt.Pt 2) : ℝ := B 0 0 * B 1 1 - B 0 1 * B 1 0

/-- coordinates of a point along the two vectors -/
noncomputable def cα (B : Fin 2 → Latt.Pt 2) (k : Latt.Pt 2) : ℝ := (k 0 * B 1 1 - k 1 * B 1 0) / det2 B
noncomputable def cβ (B : Fin 2 → Latt.Pt 2) (k : Latt.Pt 2) : ℝ := (k 1 * B 0 0 - k 0 * B 0 1) / det2 B

theorem coord_eq {B : Fin 2 → Latt.Pt 2} (hD : det2 B ≠ 0) (k : Latt.Pt 2) (a : Fin 2) :
    k a = cα B k * B 0 a + cβ B k * B 1 a := by
  unfold cα cβ
  rw [div_mul_eq_mul_div, div_mul_eq_mul_div, ← add_div, eq_div_iff hD]
  unfold det2
  fin_cases a <;> simp <;> ring

theorem pair_inj {k l : Latt.Pt 2} (h : pair k = pair l) : k = l := by
  funext a
  have h0 := congrArg Prod.fst h
  have h1 := congrArg Prod.snd h
  fin_cases a
  · exact h0
  · exact h1

/-- the integer version of `cross` -/
def crossZ (a b q : Fin 2 → ℤ) : ℤ := (b 0 - a 0) * (q 1 - a 1) - (b 1 - a 1) * (q 0 - a 0)

theorem cross_sym (B : Fin 2 → Latt.Pt 2) (hD : det2 B ≠ 0) {d : ℝ} (hd : d ≠ 0) (a b : Fin 2 → ℤ) (k : Latt.Pt 2) :
    cross (pair (symPoint B a d)) (pair (symPoint B b d)) (pair k) =
      det2 B / d ^ 2 * (((b 0 - a 0 : ℤ) : ℝ) * (d * cβ B k - a 1) - ((b 1 - a 1 : ℤ) : ℝ) * (d * cα B k - a 0)) := by
  have h0 := coord_eq hD k 0
  have h1 := coord_eq hD k 1
  simp only [cross, pair, symPoint, comb_two', h0, h1]
  generalize cα B k = x
  generalize cβ B k = y
  unfold det2
  push_cast
  field_simp
  ring

theorem cross_symZ (B : Fin 2 → Latt.Pt 2) {d : ℝ} (hd : d ≠ 0) (a b q : Fin 2 → ℤ) :
    cross (pair (symPoint B a d)) (pair (symPoint B b d)) (pair (symPoint B q d)) =
      det2 B / d ^ 2 * (crossZ a b q : ℝ) := by
  simp only [cross, pair, symPoint, comb_two', det2, crossZ]
  push_cast
  field_simp
  ring

theorem sym_inj {B : Fin 2 → Latt.Pt 2} (hD : det2 B ≠ 0) {d : ℝ} (hd : d ≠ 0) {a b : Fin 2 → ℤ}
    (h : symPoint B a d = symPoint B b d) : a = b := by
  have h0 := congrFun h 0
  have h1 := congrFun h 1
  simp only [symPoint, comb_two', div_left_inj' hd] at h0 h1
  have e0 : ((a 0 : ℝ) - b 0) * det2 B = 0 := by
    unfold det2; linear_combination B 1 1 * h0 - B 1 0 * h1
  have e1 : ((a 1 : ℝ) - b 1) * det2 B = 0 := by
    unfold det2; linear_combination B 0 0 * h1 - B 0 1 * h0
  have f0 := (mul_eq_zero.mp e0).resolve_right hD
  have f1 := (mul_eq_zero.mp e1).resolve_right hD
  funext i
  fin_cases i
  · exact_mod_cast sub_eq_zero.mp f0
  · exact_mod_cast sub_eq_zero.mp f1

/-- the edges of the polygon through coefficient vectors -/
def edgesZ (cs : List (Fin 2 → ℤ)) : List ((Fin 2 → ℤ) × (Fin 2 → ℤ)) := cs.zip (cs.rotate 1)

theorem isEdge_map (cs : List (Fin 2 → ℤ)) (f : (Fin 2 → ℤ) → ℝ × ℝ) (a b : ℝ × ℝ) :
    IsEdge (cs.map f) a b ↔ ∃ e ∈ edgesZ cs, a = f e.1 ∧ b = f e.2 := by
  rw [← mem_edges_iff, Polygon.edges, ← List.map_rotate, List.zip_map, List.mem_map]
  constructor
  · rintro ⟨⟨c, d⟩, h, e⟩
    cases e
    exact ⟨(c, d), h, rfl, rfl⟩
  · rintro ⟨e, h, rfl, rfl⟩
    exact ⟨e, h, rfl⟩

/-- all other listed coefficient vectors lie strictly on one side (clockwise) of every edge -/
def ClockwiseZ (cs : List (Fin 2 → ℤ)) : Prop :=
  3 ≤ cs.length ∧ cs.Nodup ∧ ∀ e ∈ edgesZ cs, ∀ q ∈ cs, q ≠ e.1 → q ≠ e.2 → crossZ e.1 e.2 q < 0

variable {B : Fin 2 → Latt.Pt 2} {cs : List (Fin 2 → ℤ)} {d : ℝ}

theorem sides_sym (hD : det2 B ≠ 0) (hd : d ≠ 0) (hc : ClockwiseZ cs) :
    ∃ s : ℝ, (s = 1 ∨ s = -1) ∧ s * det2 B < 0 ∧
    ∀ a b q, IsEdge (cs.map fun c => pair (symPoint B c d)) a b →
      q ∈ cs.map (fun c => pair (symPoint B c d)) → q ≠ a → q ≠ b → 0 < s * cross a b q := by
  have hs : ∃ s : ℝ, (s = 1 ∨ s = -1) ∧ s * det2 B < 0 := by
    rcases lt_or_gt_of_ne hD with h | h
    · exact ⟨1, .inl rfl, by linarith⟩
    · exact ⟨-1, .inr rfl, by linarith⟩
  obtain ⟨s, hs1, hs2⟩ := hs
  refine ⟨s, hs1, hs2, ?_⟩
  intro a b q hab hq hqa hqb
  obtain ⟨e, he, rfl, rfl⟩ := (isEdge_map cs _ a b).mp hab
  obtain ⟨c, hc', rfl⟩ := List.mem_map.mp hq
  have hz := hc.2.2 e he c hc' (fun h => hqa (by rw [h])) (fun h => hqb (by rw [h]))
  rw [cross_symZ B hd]
  have hz' : (crossZ e.1 e.2 c : ℝ) < 0 := by exact_mod_cast hz
  have : s * (det2 B / d ^ 2 * (crossZ e.1 e.2 c : ℝ)) =
      (s * det2 B) * (crossZ e.1 e.2 c : ℝ) / d ^ 2 := by ring
  rw [this]
  exact div_pos (mul_pos_of_neg_of_neg hs2 hz') (by positivity)

theorem nodup_sym (hD : det2 B ≠ 0) (hd : d ≠ 0) (hc : ClockwiseZ cs) :
    (cs.map fun c => pair (symPoint B c d)).Nodup :=
  hc.2.1.map fun _ _ h => sym_inj hD hd (pair_inj h)

theorem convex_sym (hD : det2 B ≠ 0) (hd : d ≠ 0) (hc : ClockwiseZ cs) :
    ConvexPolygon (cs.map fun c => pair (symPoint B c d)) := by
  obtain ⟨s, hs1, -, h⟩ := sides_sym hD hd hc
  exact ⟨by simpa using hc.1, nodup_sym hD hd hc, s, hs1, h⟩

/-- the function whose sign tells the side of an edge, in coordinates -/
noncomputable def sideOf (d x y : ℝ) (e : (Fin 2 → ℤ) × (Fin 2 → ℤ)) : ℝ :=
  ((e.2 0 - e.1 0 : ℤ) : ℝ) * (d * y - e.1 1) - ((e.2 1 - e.1 1 : ℤ) : ℝ) * (d * x - e.1 0)

theorem region_sym (hD : det2 B ≠ 0) (hd : d ≠ 0) (hc : ClockwiseZ cs) (k : Latt.Pt 2) :
    pair k ∈ region (cs.map fun c => pair (symPoint B c d)) ↔
      ∀ e ∈ edgesZ cs, sideOf d (cα B k) (cβ B k) e ≤ 0 := by
  obtain ⟨s, hs1, hs2, h⟩ := sides_sym hD hd hc
  have hd2 : 0 < d ^ 2 := by positivity
  rw [mem_region_iff (by simpa using hc.1) (nodup_sym hD hd hc) h]
  have key : ∀ e : (Fin 2 → ℤ) × (Fin 2 → ℤ),
      0 ≤ s * cross (pair (symPoint B e.1 d)) (pair (symPoint B e.2 d)) (pair k) ↔
      sideOf d (cα B k) (cβ B k) e ≤ 0 := by
    intro e
    rw [cross_sym B hD hd]
    change 0 ≤ s * (det2 B / d ^ 2 * sideOf d (cα B k) (cβ B k) e) ↔ _
    rw [show s * (det2 B / d ^ 2 * sideOf d (cα B k) (cβ B k) e) =
      (-(s * det2 B) / d ^ 2) * -sideOf d (cα B k) (cβ B k) e by ring]
    rw [mul_nonneg_iff_of_pos_left (div_pos (by linarith) hd2)]
    exact neg_nonneg
  constructor
  · intro H e he
    exact (key e).mp (H _ _ ((isEdge_map cs _ _ _).mpr ⟨e, he, rfl, rfl⟩))
  · intro H a b hab
    obtain ⟨e, he, rfl, rfl⟩ := (isEdge_map cs _ a b).mp hab
    exact (key e).mpr (H e he)

theorem boundary_sym (hD : det2 B ≠ 0) (hd : d ≠ 0) (hc : ClockwiseZ cs) (k : Latt.Pt 2) :
    pair k ∈ boundary (cs.map fun c => pair (symPoint B c d)) ↔
      (∀ e ∈ edgesZ cs, sideOf d (cα B k) (cβ B k) e ≤ 0) ∧
      ∃ e ∈ edgesZ cs, sideOf d (cα B k) (cβ B k) e = 0 := by
  obtain ⟨s, hs1, hs2, h⟩ := sides_sym hD hd hc
  have h3 : 3 ≤ (cs.map fun c => pair (symPoint B c d)).length := by simpa using hc.1
  have hn := nodup_sym hD hd hc
  have key : ∀ e : (Fin 2 → ℤ) × (Fin 2 → ℤ),
      cross (pair (symPoint B e.1 d)) (pair (symPoint B e.2 d)) (pair k) = 0 ↔
      sideOf d (cα B k) (cβ B k) e = 0 := by
    intro e
    rw [cross_sym B hD hd]
    change det2 B / d ^ 2 * sideOf d (cα B k) (cβ B k) e = 0 ↔ _
    rw [mul_eq_zero, or_iff_right (div_ne_zero hD (by positivity))]
  rw [← region_sym hD hd hc k]
  constructor
  · intro hb
    have hr := boundary_subset_region hb
    obtain ⟨a, b, hab, hseg⟩ := hb
    have := (mem_segment_iff h3 hn h hr hab).mp hseg
    obtain ⟨e, he, rfl, rfl⟩ := (isEdge_map cs _ a b).mp hab
    exact ⟨hr, e, he, (key e).mp this⟩
  · rintro ⟨hr, e, he, h0⟩
    have hab := (isEdge_map cs (fun c => pair (symPoint B c d)) _ _).mpr ⟨e, he, rfl, rfl⟩
    exact ⟨_, _, hab, (mem_segment_iff h3 hn h hr hab).mpr ((key e).mpr h0)⟩

theorem clockwise_hex : ClockwiseZ hexKs60 := by
  refine ⟨by decide, by decide, ?_⟩
  decide

theorem clockwise_square : ClockwiseZ squareMsCoeff := by
  refine ⟨by decide, by decide, ?_⟩
  decide

theorem coord_dot (hD : det2 B ≠ 0) (k : Latt.Pt 2) (i : Fin 2) :
    dot k (B i) = cα B k * gram B 0 i + cβ B k * gram B 1 i := by
  have h0 := coord_eq hD k 0
  have h1 := coord_eq hD k 1
  simp only [dot, gram, Fin.sum_univ_two]
  rw [h0, h1]
  generalize cα B k = x
  generalize cβ B k = y
  ring

end Verif.LDB
