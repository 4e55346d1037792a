import Verif.Proofs.PolygonZone
/-!
# C105: the first Brillouin zone as a polygon
-/

namespace Verif.LDB

open Verif.Latt Verif.Geo

theorem edges_hex : edgesZ hexKs60 = [(![1, -1], ![-1, -2]), (![-1, -2], ![-2, -1]),
    (![-2, -1], ![-1, 1]), (![-1, 1], ![1, 2]), (![1, 2], ![2, 1]), (![2, 1], ![1, -1])] := by decide

theorem edges_square : edgesZ squareMsCoeff = [(![-1, -1], ![-1, 1]), (![-1, 1], ![1, 1]),
    (![1, 1], ![1, -1]), (![1, -1], ![-1, -1])] := by decide

theorem map_pair_hex (AS : Fin 2 → Latt.Pt 2) : (hexKs AS).map pair =
    hexKs60.map fun c => pair (symPoint (bsCalculator AS) c 3) := by
  rw [hexKs, List.map_map]; rfl

theorem map_pair_square (AS : Fin 2 → Latt.Pt 2) : (squareMs AS).map pair =
    squareMsCoeff.map fun c => pair (symPoint (bsCalculator AS) c 2) := by
  rw [squareMs, List.map_map]; rfl

theorem mem_map_pair {l : List (Latt.Pt 2)} {k : Latt.Pt 2} : pair k ∈ l.map pair ↔ k ∈ l := by
  rw [List.mem_map]
  constructor
  · rintro ⟨x, hx, e⟩
    rw [← pair_inj e]; exact hx
  · intro h
    exact ⟨k, h, rfl⟩

/-- **C105 (hexagonal zones).** For two vectors of equal length at 60 degrees, the closed polygon through
the listed K-points, in the listed order, is the first Brillouin zone. -/
theorem C105_hexagon (AS : Fin 2 → Latt.Pt 2) (hdet : AS 0 0 * AS 1 1 - AS 0 1 * AS 1 0 ≠ 0)
    (h1 : gram AS 0 0 = gram AS 1 1) (h2 : 2 * gram AS 0 1 = gram AS 0 0) :
    IsZonePolygon (bsCalculator AS) (hexKs AS) := by
  obtain ⟨κ, z, g00, g11, g01, g10⟩ := zone_hex hdet h1 h2
  have hk := z.pos.ne'
  have hD : det2 (bsCalculator AS) ≠ 0 := z.det
  have h3 : (3 : ℝ) ≠ 0 := by norm_num
  rw [IsZonePolygon, map_pair_hex]
  refine ⟨convex_sym hD h3 clockwise_hex, fun k => ?_⟩
  have hs : 2 * dot k (bsCalculator AS 0) / κ = 2 * cα (bsCalculator AS) k - cβ (bsCalculator AS) k := by
    rw [coord_dot hD, g00, g10]; field_simp; ring
  have ht : 2 * dot k (bsCalculator AS 1) / κ = 2 * cβ (bsCalculator AS) k - cα (bsCalculator AS) k := by
    rw [coord_dot hD, g11, g01]; field_simp; ring
  have hin : InFirstBZ (bsCalculator AS) k ↔
      ∀ e ∈ edgesZ hexKs60, sideOf 3 (cα (bsCalculator AS) k) (cβ (bsCalculator AS) k) e ≤ 0 := by
    rw [z.inZone, hs, ht, hex_zone, edges_hex]
    generalize cα (bsCalculator AS) k = x
    generalize cβ (bsCalculator AS) k = y
    simp only [List.mem_cons, List.not_mem_nil, or_false, forall_eq_or_imp, forall_eq, sideOf,
      Matrix.cons_val_zero, Matrix.cons_val_one, abs_le]
    push_cast
    constructor
    · rintro ⟨⟨a1, a2⟩, ⟨a3, a4⟩, a5, a6⟩
      refine ⟨?_, ?_, ?_, ?_, ?_, ?_⟩ <;> linarith
    · rintro ⟨a1, a2, a3, a4, a5, a6⟩
      refine ⟨⟨?_, ?_⟩, ⟨?_, ?_⟩, ?_, ?_⟩ <;> linarith
  refine ⟨?_, ?_, ?_⟩
  · rw [← map_pair_hex, mem_map_pair]
    exact (C67_hexagon AS hdet h1 h2 k).2
  · rw [boundary_sym hD h3 clockwise_hex, OnZoneBoundary, ← hin]
    refine and_congr_right fun hz => ?_
    have hz' := (z.inZone k).mp hz
    rw [hs, ht, hex_zone] at hz'
    have hcmp : ∀ c : Fin 2 → ℤ, ndist k (comb (bsCalculator AS) c) = nnorm k ↔
        (2 * cα (bsCalculator AS) k - cβ (bsCalculator AS) k) * c 0 +
        (2 * cβ (bsCalculator AS) k - cα (bsCalculator AS) k) * c 1 = qh (c 0) (c 1) := by
      intro c
      rw [(z.cmp k c).2.1, hs, ht]
    simp only [hcmp, edges_hex]
    generalize cα (bsCalculator AS) k = x at *
    generalize cβ (bsCalculator AS) k = y at *
    simp only [List.mem_cons, List.not_mem_nil, or_false, exists_eq_or_imp, exists_eq_left, sideOf,
      Matrix.cons_val_zero, Matrix.cons_val_one]
    constructor
    · rintro (h | h | h | h | h | h)
      · exact ⟨![0, -1], by decide, by simp [qh]; push_cast at h; linarith⟩
      · exact ⟨![-1, -1], by decide, by simp [qh]; push_cast at h; linarith⟩
      · exact ⟨![-1, 0], by decide, by simp [qh]; push_cast at h; linarith⟩
      · exact ⟨![0, 1], by decide, by simp [qh]; push_cast at h; linarith⟩
      · exact ⟨![1, 1], by decide, by simp [qh]; push_cast at h; linarith⟩
      · exact ⟨![1, 0], by decide, by simp [qh]; push_cast at h; linarith⟩
    · rintro ⟨c, hc, he⟩
      obtain ⟨b1, b2, b3, b4, b5⟩ := hex_tie hz'.1 hz'.2.1 hz'.2.2 he
      have hc' : ¬ (c 0 = 0 ∧ c 1 = 0) := by
        rintro ⟨e0, e1⟩
        exact hc (by funext i; fin_cases i; exacts [e0, e1])
      generalize c 0 = g at *
      generalize c 1 = h at *
      have hcases : (g = 0 ∧ h = -1) ∨ (g = -1 ∧ h = -1) ∨ (g = -1 ∧ h = 0) ∨ (g = 0 ∧ h = 1) ∨
          (g = 1 ∧ h = 1) ∨ (g = 1 ∧ h = 0) := by
        have hg : g = -1 ∨ g = 0 ∨ g = 1 := by omega
        have hh : h = -1 ∨ h = 0 ∨ h = 1 := by omega
        rcases hg with rfl | rfl | rfl <;> rcases hh with rfl | rfl | rfl <;> simp at hc' b5 ⊢
      rcases hcases with ⟨rfl, rfl⟩ | ⟨rfl, rfl⟩ | ⟨rfl, rfl⟩ | ⟨rfl, rfl⟩ | ⟨rfl, rfl⟩ | ⟨rfl, rfl⟩ <;>
        simp only [qh] at he <;> push_cast at he ⊢
      · exact .inl (by linarith)
      · exact .inr (.inl (by linarith))
      · exact .inr (.inr (.inl (by linarith)))
      · exact .inr (.inr (.inr (.inl (by linarith))))
      · exact .inr (.inr (.inr (.inr (.inl (by linarith)))))
      · exact .inr (.inr (.inr (.inr (.inr (by linarith)))))
  · rw [region_sym hD h3 clockwise_hex, hin]

/-- **C105 (square zones).** For two orthogonal vectors of equal length, the closed polygon through the
listed M-points, in the listed order, is the first Brillouin zone. -/
theorem C105_square (AS : Fin 2 → Latt.Pt 2) (hdet : AS 0 0 * AS 1 1 - AS 0 1 * AS 1 0 ≠ 0)
    (h1 : gram AS 0 0 = gram AS 1 1) (h2 : gram AS 0 1 = 0) :
    IsZonePolygon (bsCalculator AS) (squareMs AS) := by
  obtain ⟨κ, z, g00, g11, g01, g10⟩ := zone_square hdet h1 h2
  have hk := z.pos.ne'
  have hD : det2 (bsCalculator AS) ≠ 0 := z.det
  have h3 : (2 : ℝ) ≠ 0 := by norm_num
  rw [IsZonePolygon, map_pair_square]
  refine ⟨convex_sym hD h3 clockwise_square, fun k => ?_⟩
  have hs : 2 * dot k (bsCalculator AS 0) / κ = 2 * cα (bsCalculator AS) k := by
    rw [coord_dot hD, g00, g10]; field_simp; ring
  have ht : 2 * dot k (bsCalculator AS 1) / κ = 2 * cβ (bsCalculator AS) k := by
    rw [coord_dot hD, g11, g01]; field_simp; ring
  have hin : InFirstBZ (bsCalculator AS) k ↔
      ∀ e ∈ edgesZ squareMsCoeff, sideOf 2 (cα (bsCalculator AS) k) (cβ (bsCalculator AS) k) e ≤ 0 := by
    rw [z.inZone, hs, ht, square_zone, edges_square]
    generalize cα (bsCalculator AS) k = x
    generalize cβ (bsCalculator AS) k = y
    simp only [List.mem_cons, List.not_mem_nil, or_false, forall_eq_or_imp, forall_eq, sideOf,
      Matrix.cons_val_zero, Matrix.cons_val_one, abs_le]
    push_cast
    constructor
    · rintro ⟨⟨a1, a2⟩, a3, a4⟩
      refine ⟨?_, ?_, ?_, ?_⟩ <;> linarith
    · rintro ⟨a1, a2, a3, a4⟩
      refine ⟨⟨?_, ?_⟩, ?_, ?_⟩ <;> linarith
  refine ⟨?_, ?_, ?_⟩
  · rw [← map_pair_square, mem_map_pair]
    exact (C67_square AS hdet h1 h2 k).2
  · rw [boundary_sym hD h3 clockwise_square, OnZoneBoundary, ← hin]
    refine and_congr_right fun hz => ?_
    have hz' := (z.inZone k).mp hz
    rw [hs, ht, square_zone] at hz'
    have hcmp : ∀ c : Fin 2 → ℤ, ndist k (comb (bsCalculator AS) c) = nnorm k ↔
        (2 * cα (bsCalculator AS) k) * c 0 + (2 * cβ (bsCalculator AS) k) * c 1 = qs (c 0) (c 1) := by
      intro c
      rw [(z.cmp k c).2.1, hs, ht]
    simp only [hcmp, edges_square]
    generalize cα (bsCalculator AS) k = x at *
    generalize cβ (bsCalculator AS) k = y at *
    simp only [List.mem_cons, List.not_mem_nil, or_false, exists_eq_or_imp, exists_eq_left, sideOf,
      Matrix.cons_val_zero, Matrix.cons_val_one]
    constructor
    · rintro (h | h | h | h)
      · exact ⟨![-1, 0], by decide, by simp [qs]; push_cast at h; linarith⟩
      · exact ⟨![0, 1], by decide, by simp [qs]; push_cast at h; linarith⟩
      · exact ⟨![1, 0], by decide, by simp [qs]; push_cast at h; linarith⟩
      · exact ⟨![0, -1], by decide, by simp [qs]; push_cast at h; linarith⟩
    · rintro ⟨c, hc, he⟩
      obtain ⟨b1, b2, b3, b4⟩ := square_tie hz'.1 hz'.2 he
      have hc' : ¬ (c 0 = 0 ∧ c 1 = 0) := by
        rintro ⟨e0, e1⟩
        exact hc (by funext i; fin_cases i; exacts [e0, e1])
      generalize c 0 = g at *
      generalize c 1 = h at *
      obtain ⟨⟨x1, x2⟩, y1, y2⟩ := hz'.imp abs_le.mp abs_le.mp
      have hg : g = -1 ∨ g = 0 ∨ g = 1 := by omega
      have hh : h = -1 ∨ h = 0 ∨ h = 1 := by omega
      rcases hg with rfl | rfl | rfl <;> rcases hh with rfl | rfl | rfl <;> simp only [qs] at he <;>
        push_cast at he ⊢
      · exact .inl (by linarith)
      · exact .inl (by linarith)
      · exact .inl (by linarith)
      · exact .inr (.inr (.inr (by linarith)))
      · simp at hc'
      · exact .inr (.inl (by linarith))
      · exact .inr (.inr (.inl (by linarith)))
      · exact .inr (.inr (.inl (by linarith)))
      · exact .inr (.inr (.inl (by linarith)))
  · rw [region_sym hD h3 clockwise_square, hin]

/-- **C105 (database).** The listed corner points of the nine two-dimensional clusters that list them. -/
theorem C105_database :
    (∀ AS ∈ [squareCell.vectors, squareZ.vectors, squareS.vectors],
      IsZonePolygon (bsCalculator AS) (squareMs AS)) ∧
    (∀ AS ∈ [triangleCell.vectors, honeycombCell.vectors, kagomeCell.vectors, triangleStar.vectors,
      honeycombBenzene.vectors, honeycombGear.vectors],
      IsZonePolygon (bsCalculator AS) (hexKs AS)) := by
  have h3 := r3_sq
  have hpos := r3_pos
  constructor
  · simp only [List.mem_cons, List.not_mem_nil, or_false, forall_eq_or_imp, forall_eq]
    refine ⟨C105_square _ ?_ ?_ ?_, C105_square _ ?_ ?_ ?_, C105_square _ ?_ ?_ ?_⟩ <;>
      simp only [gram, Fin.sum_univ_two, squareCell, squareZ, squareS, Matrix.cons_val_zero,
        Matrix.cons_val_one, Matrix.cons_val_fin_one]
    all_goals norm_num
  · have tri : IsZonePolygon (bsCalculator triangleCell.vectors) (hexKs triangleCell.vectors) := by
      refine C105_hexagon _ ?_ ?_ ?_ <;>
        simp only [gram, Fin.sum_univ_two, triangleCell, Matrix.cons_val_zero, Matrix.cons_val_one,
          Matrix.cons_val_fin_one]
      · nlinarith
      · linear_combination (-1 / 4 : ℝ) * h3
      · norm_num
    simp only [List.mem_cons, List.not_mem_nil, or_false, forall_eq_or_imp, forall_eq]
    refine ⟨tri, tri, tri, C105_hexagon _ ?_ ?_ ?_, C105_hexagon _ ?_ ?_ ?_, C105_hexagon _ ?_ ?_ ?_⟩ <;>
      simp only [gram, Fin.sum_univ_two, triangleStar, honeycombBenzene,
        honeycombGear, Matrix.cons_val_zero, Matrix.cons_val_one, Matrix.cons_val_fin_one]
    any_goals norm_num
    any_goals nlinarith

open Classical in
/-- **C105 (classification).** Whenever the corners form the zone polygon of linearly independent
reciprocal vectors, `Polygon(corners).LocationRelation(k, [0, 0])` (tolerance 0) tells where `k` is with respect
to the first Brillouin zone, for every `k` outside the blind spot of C42; in the blind spot it answers
BOUNDARY although `k` is outside the zone. -/
theorem C105_classification (B : Fin 2 → Latt.Pt 2) (corners : List (Latt.Pt 2))
    (hz : IsZonePolygon B corners) (hdet : B 0 0 * B 1 1 - B 0 1 * B 1 0 ≠ 0) (k : Latt.Pt 2) :
    (¬ BlindSpot (corners.map pair) (0, 0) (pair k) →
      Polygon.locationRelation ⟨corners.map pair⟩ (pair k) (0, 0) 0 = .ok
        (if IsCorner B k then .corner
         else if OnZoneBoundary B k then .boundary
         else if InFirstBZ B k then .inside else .outside)) ∧
    (BlindSpot (corners.map pair) (0, 0) (pair k) →
      ¬ InFirstBZ B k ∧
      Polygon.locationRelation ⟨corners.map pair⟩ (pair k) (0, 0) 0 = .ok .boundary) := by
  have hB : ∀ c : Fin 2 → ℤ, c ≠ 0 → comb B c ≠ 0 := by
    intro c hc h
    have e0 := congrFun h 0
    have e1 := congrFun h 1
    rw [comb_two'] at e0 e1
    simp only [Pi.zero_apply] at e0 e1
    refine hc (funext fun i => ?_)
    have a0 : (c 0 : ℝ) = 0 := by
      refine (mul_eq_zero.mp (?_ : (c 0 : ℝ) * (B 0 0 * B 1 1 - B 0 1 * B 1 0) = 0)).resolve_right hdet
      linear_combination B 1 1 * e0 - B 1 0 * e1
    have a1 : (c 1 : ℝ) = 0 := by
      refine (mul_eq_zero.mp (?_ : (c 1 : ℝ) * (B 0 0 * B 1 1 - B 0 1 * B 1 0) = 0)).resolve_right hdet
      linear_combination B 0 0 * e1 - B 0 1 * e0
    fin_cases i
    · exact_mod_cast a0
    · exact_mod_cast a1
  obtain ⟨hc, hk⟩ := hz
  have hzero : ((0, 0) : ℝ × ℝ) = pair (0 : Latt.Pt 2) := rfl
  have hn0 : nnorm (0 : Latt.Pt 2) = 0 := by simp [nnorm]
  have hr : ((0, 0) : ℝ × ℝ) ∈ region (corners.map pair) := by
    rw [hzero, (hk 0).2.2]
    intro c
    rw [hn0]
    exact Real.sqrt_nonneg _
  have hb : ((0, 0) : ℝ × ℝ) ∉ boundary (corners.map pair) := by
    rw [hzero, (hk 0).2.1]
    rintro ⟨-, c, hc0, h⟩
    rw [hn0, ndist, Real.sqrt_eq_zero (Finset.sum_nonneg fun _ _ => sq_nonneg _),
      Finset.sum_eq_zero_iff_of_nonneg (fun _ _ => sq_nonneg _)] at h
    refine hB c hc0 (funext fun a => ?_)
    have := h a (Finset.mem_univ a)
    simpa using this
  obtain ⟨e1, e2⟩ := C42_exactly_when (corners.map pair) hc (pair k) (0, 0) hr hb
  obtain ⟨k1, k2, k3⟩ := hk k
  refine ⟨fun h => ?_, fun h => ?_⟩
  · rw [e1 h]
    simp only [k1, k2, k3]
  · obtain ⟨f1, f2⟩ := e2 h
    exact ⟨fun h' => f1 (k3.mpr h'), f2⟩

/-- the reciprocal vectors of the triangular cell -/
theorem bs_triangle : bsCalculator triangleCell.vectors =
    ![![2 * Real.pi, -(2 * Real.pi / r3)], ![0, 4 * Real.pi / r3]] := by
  have hpos := r3_pos
  have hne := hpos.ne'
  rw [bs_two]
  funext i a
  fin_cases i <;> fin_cases a <;> simp [triangleCell] <;> field_simp <;> norm_num

/-- the reciprocal vectors of the square cell -/
theorem bs_square : bsCalculator squareCell.vectors = ![![2 * Real.pi, 0], ![0, 2 * Real.pi]] := by
  rw [bs_two]
  funext i a
  fin_cases i <;> fin_cases a <;> simp [squareCell]

/-- the reciprocal vectors of the benzene cluster -/
theorem bs_benzene : bsCalculator honeycombBenzene.vectors =
    ![![2 * Real.pi / 3, -(2 * Real.pi / r3)], ![2 * Real.pi / 3, 2 * Real.pi / r3]] := by
  have hpos := r3_pos
  have hne := hpos.ne'
  rw [bs_two]
  funext i a
  fin_cases i <;> fin_cases a <;> simp [honeycombBenzene] <;> field_simp <;> ring

theorem segment_subset_Icc_of_snd {a b p : ℝ × ℝ} (h : p ∈ segment ℝ a b) :
    min a.2 b.2 ≤ p.2 ∧ p.2 ≤ max a.2 b.2 := by
  obtain ⟨u, v, hu, hv, huv, rfl⟩ := h
  simp only [Prod.snd_add, Prod.smul_snd, smul_eq_mul]
  constructor
  · have h1 := min_le_left a.2 b.2
    have h2 := min_le_right a.2 b.2
    have := mul_le_mul_of_nonneg_left h1 hu
    have := mul_le_mul_of_nonneg_left h2 hv
    calc min a.2 b.2 = u * min a.2 b.2 + v * min a.2 b.2 := by rw [← add_mul, huv, one_mul]
      _ ≤ _ := by linarith
  · have h1 := le_max_left a.2 b.2
    have h2 := le_max_right a.2 b.2
    have := mul_le_mul_of_nonneg_left h1 hu
    have := mul_le_mul_of_nonneg_left h2 hv
    calc _ ≤ u * max a.2 b.2 + v * max a.2 b.2 := by linarith
      _ = max a.2 b.2 := by rw [← add_mul, huv, one_mul]

/-- no blind spot when consecutive corners have different abscissas -/
theorem not_blind {vs : List Verif.Pt} {ref p : Verif.Pt}
    (h : ∀ i a b, vs[i]? = some a → vs[(i + 1) % vs.length]? = some b → a.1 ≠ b.1) : ¬ BlindSpot vs ref p := by
  rintro ⟨i, a, b, ha, hb, hv, -⟩
  exact h i a b ha hb hv

open Classical in
/-- **C105 (triangle, honeycomb and kagome cells).** For these cells (all of which have the vectors of the
triangular one) `Polygon(KS).LocationRelation(k, [0, 0])` (tolerance 0) is right about every `k`. -/
theorem C105_triangle (k : Latt.Pt 2) :
    Polygon.locationRelation ⟨(hexKs triangleCell.vectors).map pair⟩ (pair k) (0, 0) 0 = .ok
      (if IsCorner (bsCalculator triangleCell.vectors) k then .corner
       else if OnZoneBoundary (bsCalculator triangleCell.vectors) k then .boundary
       else if InFirstBZ (bsCalculator triangleCell.vectors) k then .inside else .outside) := by
  have hpi := Real.pi_pos
  have hz := C105_database.2 triangleCell.vectors (by simp)
  refine (C105_classification _ _ hz ?_ k).1 (not_blind ?_)
  · rw [bs_triangle]
    have := r3_pos
    simp only [Matrix.cons_val_zero, Matrix.cons_val_one, Matrix.cons_val_fin_one]
    have : 0 < 4 * Real.pi / r3 := by positivity
    nlinarith
  · have hx : ∀ c : Fin 2 → ℤ, (pair (symPoint (bsCalculator triangleCell.vectors) c 3)).1 =
        c 0 * (2 * Real.pi / 3) := by
      intro c
      simp only [pair, symPoint, comb_two', bs_triangle, Matrix.cons_val_zero, Matrix.cons_val_one]
      ring
    intro i a b ha hb he
    rw [map_pair_hex] at ha hb
    rw [List.length_map, List.getElem?_map] at hb
    rw [List.getElem?_map] at ha
    obtain ⟨ca, ha2, rfl⟩ := Option.map_eq_some_iff.mp ha
    obtain ⟨cb, hb2, rfl⟩ := Option.map_eq_some_iff.mp hb
    rw [hx, hx] at he
    have h2 : (2 * Real.pi / 3) ≠ 0 := by positivity
    have he' : ca 0 = cb 0 := by exact_mod_cast mul_right_cancel₀ h2 he
    have hi : i < hexKs60.length := by
      by_contra h
      rw [List.getElem?_eq_none (not_lt.mp h)] at ha2
      cases ha2
    have hall : ∀ i < 6, (hexKs60[i]?.map fun c => c 0) ≠ (hexKs60[(i + 1) % 6]?.map fun c => c 0) := by decide
    refine hall i hi ?_
    rw [ha2, show hexKs60[(i + 1) % 6]? = some cb from hb2]
    exact congrArg some he'

/-- **C105 (violated for the square cell).** Every point of the line `kx = -π` beyond the zone of the
square cell is reported to be on its boundary. -/
theorem C105_square_wrong (y : ℝ) (hy : Real.pi < |y|) :
    ¬ InFirstBZ (bsCalculator squareCell.vectors) ![-Real.pi, y] ∧
    Polygon.locationRelation ⟨(squareMs squareCell.vectors).map pair⟩ (-Real.pi, y) (0, 0) 0 =
      .ok .boundary := by
  have hpi := Real.pi_pos
  have hz := C105_database.1 squareCell.vectors (by simp)
  refine (C105_classification _ _ hz ?_ ![-Real.pi, y]).2 ?_
  · rw [bs_square]
    simp [hpi.ne']
  · have e : (squareMs squareCell.vectors).map pair =
        [(-Real.pi, -Real.pi), (-Real.pi, Real.pi), (Real.pi, Real.pi), (Real.pi, -Real.pi)] := by
      simp only [squareMs, squareMsCoeff, bs_square, List.map_cons, List.map_nil, pair, symPoint, comb_two',
        Matrix.cons_val_zero, Matrix.cons_val_one, Matrix.cons_val_fin_one]
      push_cast
      norm_num
      ring
    rw [e]
    refine ⟨0, (-Real.pi, -Real.pi), (-Real.pi, Real.pi), rfl, rfl, rfl, rfl, ?_, fun j hj => absurd hj (by omega)⟩
    intro h
    have h2 := (segment_subset_Icc_of_snd h)
    change min (-Real.pi) Real.pi ≤ y ∧ y ≤ max (-Real.pi) Real.pi at h2
    rw [min_eq_left (by linarith), max_eq_right (by linarith)] at h2
    exact absurd (abs_le.mpr h2) (not_le.mpr hy)

/-- **C105 (violated for the benzene cluster).** Every point of the line `kx = -2π/3` above the zone of the
six-site honeycomb cluster is reported to be on its boundary. -/
theorem C105_benzene_wrong (y : ℝ) (hy : 2 * Real.pi / (3 * r3) < y) :
    ¬ InFirstBZ (bsCalculator honeycombBenzene.vectors) ![-(2 * Real.pi / 3), y] ∧
    Polygon.locationRelation ⟨(hexKs honeycombBenzene.vectors).map pair⟩ (-(2 * Real.pi / 3), y) (0, 0) 0 =
      .ok .boundary := by
  have hpi := Real.pi_pos
  have hr := r3_pos
  have hne := hr.ne'
  have hz := C105_database.2 honeycombBenzene.vectors (by simp)
  refine (C105_classification _ _ hz ?_ ![-(2 * Real.pi / 3), y]).2 ?_
  · rw [bs_benzene]
    simp only [Matrix.cons_val_zero, Matrix.cons_val_one, Matrix.cons_val_fin_one]
    have : 0 < 2 * Real.pi / r3 := by positivity
    nlinarith
  · have e : (hexKs honeycombBenzene.vectors).map pair =
        [(0, -(4 * Real.pi / (3 * r3))), (-(2 * Real.pi / 3), -(2 * Real.pi / (3 * r3))),
         (-(2 * Real.pi / 3), 2 * Real.pi / (3 * r3)), (0, 4 * Real.pi / (3 * r3)),
         (2 * Real.pi / 3, 2 * Real.pi / (3 * r3)), (2 * Real.pi / 3, -(2 * Real.pi / (3 * r3)))] := by
      simp only [hexKs, hexKs60, bs_benzene, List.map_cons, List.map_nil, pair, symPoint, comb_two',
        Matrix.cons_val_zero, Matrix.cons_val_one, Matrix.cons_val_fin_one]
      push_cast
      simp only [List.cons.injEq, Prod.mk.injEq, and_true]
      refine ⟨⟨?_, ?_⟩, ⟨?_, ?_⟩, ⟨?_, ?_⟩, ⟨?_, ?_⟩, ⟨?_, ?_⟩, ?_, ?_⟩ <;> field_simp <;> norm_num
    rw [e]
    refine ⟨1, (-(2 * Real.pi / 3), -(2 * Real.pi / (3 * r3))), (-(2 * Real.pi / 3), 2 * Real.pi / (3 * r3)),
      rfl, rfl, rfl, rfl, ?_, ?_⟩
    · intro h
      have h2 := (segment_subset_Icc_of_snd h)
      exact absurd h2.2 (by
        change ¬ y ≤ max (-(2 * Real.pi / (3 * r3))) (2 * Real.pi / (3 * r3))
        rw [max_eq_right (by have : 0 < 2 * Real.pi / (3 * r3) := by positivity
                             linarith)]
        exact not_le.mpr hy)
    · intro j hj a b ha hb
      obtain rfl : j = 0 := by omega
      simp only [List.getElem?_cons_zero, Option.some.injEq] at ha
      have hb' : (-(2 * Real.pi / 3), -(2 * Real.pi / (3 * r3))) = b := by simpa using hb
      subst ha hb'
      have hq : 0 < 2 * Real.pi / (3 * r3) := by positivity
      have h4 : 4 * Real.pi / (3 * r3) = 2 * (2 * Real.pi / (3 * r3)) := by ring
      simp only [cross, pair, h4, Matrix.cons_val_zero, Matrix.cons_val_one]
      generalize 2 * Real.pi / (3 * r3) = q at *
      have hp : 0 < 2 * Real.pi / 3 := by positivity
      generalize 2 * Real.pi / 3 = w at *
      apply mul_pos_of_neg_of_neg <;> nlinarith

/-- Non-vacuity: the hypotheses of `C105_square_wrong` and `C105_benzene_wrong` hold for `y = 4`, and
the corner `(4π/3, 0)` of the triangular zone is reported as a corner. -/
example : Real.pi < |(4 : ℝ)| ∧ 2 * Real.pi / (3 * r3) < 4 := by
  have h4 := Real.pi_lt_four
  have hr := r3_pos
  have h3 := r3_sq
  refine ⟨by rw [abs_of_pos (by norm_num)]; exact h4, ?_⟩
  rw [div_lt_iff₀ (by positivity)]
  nlinarith

example : Polygon.locationRelation ⟨(hexKs triangleCell.vectors).map pair⟩ (pair ![4 * Real.pi / 3, 0]) (0, 0) 0 =
    .ok .corner := by
  classical
  have hr := r3_pos
  have hz := C105_database.2 triangleCell.vectors (by simp)
  rw [C105_triangle, if_pos]
  rw [← (hz.2 _).1, mem_map_pair, hexKs, hexKs60]
  have : (![4 * Real.pi / 3, 0] : Latt.Pt 2) = symPoint (bsCalculator triangleCell.vectors) ![2, 1] 3 := by
    funext a
    fin_cases a <;> simp [symPoint, comb_two', bs_triangle] <;> ring
  rw [this]
  simp

end Verif.LDB
