import Verif.Proofs.LatticeSymmetry
import Verif.Props.LatticeDatabase
/-!
# C67: the reciprocal vectors and the high-symmetry points of the database
-/

namespace Verif.LDB

open Verif.Latt Matrix

theorem gram_bs {AS : Fin 2 → Pt 2} :
    gram (bsCalculator AS) 0 0 = (2 * Real.pi / (AS 0 0 * AS 1 1 - AS 0 1 * AS 1 0)) ^ 2 * gram AS 1 1 ∧
    gram (bsCalculator AS) 1 1 = (2 * Real.pi / (AS 0 0 * AS 1 1 - AS 0 1 * AS 1 0)) ^ 2 * gram AS 0 0 ∧
    gram (bsCalculator AS) 0 1 =
      -((2 * Real.pi / (AS 0 0 * AS 1 1 - AS 0 1 * AS 1 0)) ^ 2 * gram AS 0 1) := by
  rw [bs_two]
  refine ⟨?_, ?_, ?_⟩ <;> simp [gram, Fin.sum_univ_two] <;> ring

theorem det_bs {AS : Fin 2 → Pt 2} (hdet : AS 0 0 * AS 1 1 - AS 0 1 * AS 1 0 ≠ 0) :
    bsCalculator AS 0 0 * bsCalculator AS 1 1 - bsCalculator AS 0 1 * bsCalculator AS 1 0 ≠ 0 := by
  have : bsCalculator AS 0 0 * bsCalculator AS 1 1 - bsCalculator AS 0 1 * bsCalculator AS 1 0 =
      (2 * Real.pi) ^ 2 / (AS 0 0 * AS 1 1 - AS 0 1 * AS 1 0) := by
    rw [bs_two]; simp; field_simp
  rw [this]
  have := Real.pi_pos
  positivity

theorem gram_pos {AS : Fin 2 → Pt 2} (hdet : AS 0 0 * AS 1 1 - AS 0 1 * AS 1 0 ≠ 0) :
    0 < gram AS 0 0 := by
  refine (gram_self_nonneg AS 0).lt_of_ne' fun h => hdet ?_
  simp only [gram, Fin.sum_univ_two] at h
  have h0 : AS 0 0 = 0 := by nlinarith [mul_self_nonneg (AS 0 0), mul_self_nonneg (AS 0 1)]
  have h1 : AS 0 1 = 0 := by nlinarith [mul_self_nonneg (AS 0 0), mul_self_nonneg (AS 0 1)]
  rw [h0, h1]; ring

theorem zone_hex {AS : Fin 2 → Pt 2} (hdet : AS 0 0 * AS 1 1 - AS 0 1 * AS 1 0 ≠ 0)
    (h1 : gram AS 0 0 = gram AS 1 1) (h2 : 2 * gram AS 0 1 = gram AS 0 0) :
    ∃ κ, Zone (bsCalculator AS) qh κ ∧ gram (bsCalculator AS) 0 0 = κ ∧
      gram (bsCalculator AS) 1 1 = κ ∧ gram (bsCalculator AS) 0 1 = -(κ / 2) ∧
      gram (bsCalculator AS) 1 0 = -(κ / 2) := by
  obtain ⟨g00, g11, g01⟩ := gram_bs (AS := AS)
  have hp := gram_pos hdet
  have hpi := Real.pi_pos
  set κ := (2 * Real.pi / (AS 0 0 * AS 1 1 - AS 0 1 * AS 1 0)) ^ 2 * gram AS 0 0 with hκ
  have g01' : gram (bsCalculator AS) 0 1 = -(κ / 2) := by rw [g01, hκ, ← h2]; ring
  have g10' : gram (bsCalculator AS) 1 0 = -(κ / 2) := by rw [gram_comm, g01']
  refine ⟨κ, ⟨by positivity, det_bs hdet, fun c => ?_⟩, by rw [g00, ← h1], g11, g01', g10'⟩
  rw [Fin.sum_univ_two, Fin.sum_univ_two, Fin.sum_univ_two, g00, g11, g01', g10', ← h1]
  rw [← hκ, qh]; push_cast; ring

theorem zone_square {AS : Fin 2 → Pt 2} (hdet : AS 0 0 * AS 1 1 - AS 0 1 * AS 1 0 ≠ 0)
    (h1 : gram AS 0 0 = gram AS 1 1) (h2 : gram AS 0 1 = 0) :
    ∃ κ, Zone (bsCalculator AS) qs κ ∧ gram (bsCalculator AS) 0 0 = κ ∧
      gram (bsCalculator AS) 1 1 = κ ∧ gram (bsCalculator AS) 0 1 = 0 ∧
      gram (bsCalculator AS) 1 0 = 0 := by
  obtain ⟨g00, g11, g01⟩ := gram_bs (AS := AS)
  have hp := gram_pos hdet
  have hpi := Real.pi_pos
  set κ := (2 * Real.pi / (AS 0 0 * AS 1 1 - AS 0 1 * AS 1 0)) ^ 2 * gram AS 0 0 with hκ
  have g01' : gram (bsCalculator AS) 0 1 = 0 := by rw [g01, h2]; ring
  have g10' : gram (bsCalculator AS) 1 0 = 0 := by rw [gram_comm, g01']
  refine ⟨κ, ⟨by positivity, det_bs hdet, fun c => ?_⟩, by rw [g00, ← h1], g11, g01', g10'⟩
  rw [Fin.sum_univ_two, Fin.sum_univ_two, Fin.sum_univ_two, g00, g11, g01', g10', ← h1]
  rw [← hκ, qs]; push_cast; ring

/-- **C67 (hexagonal zones).** For two vectors of equal length at 60 degrees, the six listed M-points
are exactly the middles of the edges and the six listed K-points exactly the corners of the first
Brillouin zone. -/
theorem C67_hexagon (AS : Fin 2 → Pt 2) (hdet : AS 0 0 * AS 1 1 - AS 0 1 * AS 1 0 ≠ 0)
    (h1 : gram AS 0 0 = gram AS 1 1) (h2 : 2 * gram AS 0 1 = gram AS 0 0) (k : Pt 2) :
    (k ∈ hexMs AS ↔ IsEdgeMiddle (bsCalculator AS) k) ∧
    (k ∈ hexKs AS ↔ IsCorner (bsCalculator AS) k) := by
  obtain ⟨κ, z, g00, g11, g01, g10⟩ := zone_hex hdet h1 h2
  have hk := z.pos.ne'
  set B := bsCalculator AS with hB
  set s := 2 * dot k (B 0) / κ with hs
  set t := 2 * dot k (B 1) / κ with ht
  have hsym : ∀ (c : Fin 2 → ℤ) (d : ℝ), k = symPoint B c d ↔
      s = (2 * c 0 - c 1) / d ∧ t = (2 * c 1 - c 0) / d := by
    intro c d
    rw [z.eq_sym, g00, g11, g01, g10]
    have e1 : 2 * (((c 0 : ℝ) * κ + c 1 * -(κ / 2)) / d) / κ = (2 * c 0 - c 1) / d := by
      field_simp; ring
    have e2 : 2 * (((c 0 : ℝ) * -(κ / 2) + c 1 * κ) / d) / κ = (2 * c 1 - c 0) / d := by
      field_simp; ring
    rw [e1, e2]
  constructor
  · have hmem : k ∈ hexMs AS ↔ ∃ c ∈ hexMs60, k = symPoint B c 2 := by
      simp only [hexMs, List.mem_map]
      exact ⟨fun ⟨c, h, e⟩ => ⟨c, h, e.symm⟩, fun ⟨c, h, e⟩ => ⟨c, h, e.symm⟩⟩
    rw [hmem]
    constructor
    · rintro ⟨c, hc, hkc⟩
      obtain ⟨es, et⟩ := (hsym c 2).1 hkc
      have hzone : |s| ≤ 1 ∧ |t| ≤ 1 ∧ |s + t| ≤ 1 := by
        rw [es, et]
        simp only [hexMs60, List.mem_cons, List.not_mem_nil, or_false] at hc
        rcases hc with rfl | rfl | rfl | rfl | rfl | rfl <;>
          · simp only [Matrix.cons_val_zero, Matrix.cons_val_one, Matrix.cons_val_fin_one]
            refine ⟨abs_le.2 ?_, abs_le.2 ?_, abs_le.2 ?_⟩ <;> norm_num
      refine ⟨c, ?_, ?_, ?_⟩
      · rintro rfl
        simp only [hexMs60, List.mem_cons, List.not_mem_nil, or_false] at hc
        rcases hc with h | h | h | h | h | h <;>
          · have a0 := congrFun h 0
            have a1 := congrFun h 1
            simp at a0 a1
      · rw [hkc]; funext a; simp only [symPoint]; ring
      · intro d hd0 hdc
        rw [(z.cmp k d).2.2]
        refine lt_of_le_of_ne (hex_zone.2 hzone _ _) fun he => ?_
        obtain ⟨b1, b2, b3, b4, b5⟩ := hex_tie hzone.1 hzone.2.1 hzone.2.2 he
        rw [← hs, ← ht, es, et] at he
        have hd : d = ![d 0, d 1] := int2_ext rfl rfl
        generalize hg : d 0 = g at *
        generalize hh : d 1 = h at *
        simp only [hexMs60, List.mem_cons, List.not_mem_nil, or_false] at hc
        rcases hc with rfl | rfl | rfl | rfl | rfl | rfl <;>
          · simp only [Matrix.cons_val_zero, Matrix.cons_val_one, Matrix.cons_val_fin_one] at he
            interval_cases g <;> interval_cases h <;>
              first
                | exact b5 (by decide)
                | exact hd0 (by rw [hd]; decide)
                | exact hdc hd
                | (norm_num [qh] at he)
    · rintro ⟨c, hc0, hkc, hmin⟩
      have hkc' : k = symPoint B c 2 := by
        funext a
        have := congrFun hkc a
        simp only [symPoint]
        rw [← this]; ring
      obtain ⟨es, et⟩ := (hsym c 2).1 hkc'
      have htie : s * c 0 + t * c 1 = qh (c 0) (c 1) := by
        rw [es, et, qh]; push_cast; ring
      have hin : ∀ g h : ℤ, s * g + t * h ≤ qh g h := by
        refine (z.inZone k).1 fun d => ?_
        by_cases hd0 : d = 0
        · subst hd0
          rw [(z.cmp k 0).1]; simp [qh]
        · by_cases hdc : d = c
          · subst hdc
            rw [(z.cmp k d).1, ← hs, ← ht, htie]
          · exact (hmin d hd0 hdc).le
      have hzone := hex_zone.1 hin
      obtain ⟨b1, b2, b3, b4, b5⟩ := hex_tie hzone.1 hzone.2.1 hzone.2.2 htie
      refine ⟨c, ?_, hkc'⟩
      have hc : c = ![c 0, c 1] := int2_ext rfl rfl
      rw [hc] at hc0 ⊢
      generalize c 0 = g at *
      generalize c 1 = h at *
      interval_cases g <;> interval_cases h <;>
        first
          | exact absurd (by decide) b5
          | exact absurd (by decide) hc0
          | simp [hexMs60]
  · have hmem : k ∈ hexKs AS ↔ ∃ c ∈ hexKs60, k = symPoint B c 3 := by
      simp only [hexKs, List.mem_map]
      exact ⟨fun ⟨c, h, e⟩ => ⟨c, h, e.symm⟩, fun ⟨c, h, e⟩ => ⟨c, h, e.symm⟩⟩
    rw [hmem, z.corner, ← hs, ← ht, hex_zone, hex_corner_iff]
    simp only [hsym, hexKs60, List.mem_cons, List.not_mem_nil, or_false, exists_eq_or_imp,
      exists_eq_left, Matrix.cons_val_zero, Matrix.cons_val_one, Matrix.cons_val_fin_one]
    norm_num

/-- **C67 (square zones).** For two orthogonal vectors of equal length, the four listed X-points are
exactly the middles of the edges and the four listed M-points exactly the corners. -/
theorem C67_square (AS : Fin 2 → Pt 2) (hdet : AS 0 0 * AS 1 1 - AS 0 1 * AS 1 0 ≠ 0)
    (h1 : gram AS 0 0 = gram AS 1 1) (h2 : gram AS 0 1 = 0) (k : Pt 2) :
    (k ∈ squareXs AS ↔ IsEdgeMiddle (bsCalculator AS) k) ∧
    (k ∈ squareMs AS ↔ IsCorner (bsCalculator AS) k) := by
  obtain ⟨κ, z, g00, g11, g01, g10⟩ := zone_square hdet h1 h2
  have hk := z.pos.ne'
  set B := bsCalculator AS with hB
  set s := 2 * dot k (B 0) / κ with hs
  set t := 2 * dot k (B 1) / κ with ht
  have hsym : ∀ (c : Fin 2 → ℤ) (d : ℝ), k = symPoint B c d ↔
      s = 2 * c 0 / d ∧ t = 2 * c 1 / d := by
    intro c d
    rw [z.eq_sym, g00, g11, g01, g10]
    have e1 : 2 * (((c 0 : ℝ) * κ + c 1 * 0) / d) / κ = 2 * c 0 / d := by
      field_simp; ring
    have e2 : 2 * (((c 0 : ℝ) * 0 + c 1 * κ) / d) / κ = 2 * c 1 / d := by
      field_simp; ring
    rw [e1, e2]
  constructor
  · have hmem : k ∈ squareXs AS ↔ ∃ c ∈ squareXsCoeff, k = symPoint B c 2 := by
      simp only [squareXs, List.mem_map]
      exact ⟨fun ⟨c, h, e⟩ => ⟨c, h, e.symm⟩, fun ⟨c, h, e⟩ => ⟨c, h, e.symm⟩⟩
    rw [hmem]
    constructor
    · rintro ⟨c, hc, hkc⟩
      obtain ⟨es, et⟩ := (hsym c 2).1 hkc
      have hzone : |s| ≤ 1 ∧ |t| ≤ 1 := by
        rw [es, et]
        simp only [squareXsCoeff, List.mem_cons, List.not_mem_nil, or_false] at hc
        rcases hc with rfl | rfl | rfl | rfl <;>
          · simp only [Matrix.cons_val_zero, Matrix.cons_val_one, Matrix.cons_val_fin_one]
            refine ⟨abs_le.2 ?_, abs_le.2 ?_⟩ <;> norm_num
      refine ⟨c, ?_, ?_, ?_⟩
      · rintro rfl
        simp only [squareXsCoeff, List.mem_cons, List.not_mem_nil, or_false] at hc
        rcases hc with h | h | h | h <;>
          · have a0 := congrFun h 0
            have a1 := congrFun h 1
            simp at a0 a1
      · rw [hkc]; funext a; simp only [symPoint]; ring
      · intro d hd0 hdc
        rw [(z.cmp k d).2.2]
        refine lt_of_le_of_ne (square_zone.2 hzone _ _) fun he => ?_
        obtain ⟨b1, b2, b3, b4⟩ := square_tie hzone.1 hzone.2 he
        rw [← hs, ← ht, es, et] at he
        have hd : d = ![d 0, d 1] := int2_ext rfl rfl
        generalize hg : d 0 = g at *
        generalize hh : d 1 = h at *
        simp only [squareXsCoeff, List.mem_cons, List.not_mem_nil, or_false] at hc
        rcases hc with rfl | rfl | rfl | rfl <;>
          · simp only [Matrix.cons_val_zero, Matrix.cons_val_one, Matrix.cons_val_fin_one] at he
            interval_cases g <;> interval_cases h <;>
              first
                | exact hd0 (by rw [hd]; decide)
                | exact hdc hd
                | (norm_num [qs] at he)
    · rintro ⟨c, hc0, hkc, hmin⟩
      have hkc' : k = symPoint B c 2 := by
        funext a
        have := congrFun hkc a
        simp only [symPoint]
        rw [← this]; ring
      obtain ⟨es, et⟩ := (hsym c 2).1 hkc'
      have htie : s * c 0 + t * c 1 = qs (c 0) (c 1) := by
        rw [es, et, qs]; push_cast; ring
      have hin : ∀ g h : ℤ, s * g + t * h ≤ qs g h := by
        refine (z.inZone k).1 fun d => ?_
        by_cases hd0 : d = 0
        · subst hd0
          rw [(z.cmp k 0).1]; simp [qs]
        · by_cases hdc : d = c
          · subst hdc
            rw [(z.cmp k d).1, ← hs, ← ht, htie]
          · exact (hmin d hd0 hdc).le
      have hzone := square_zone.1 hin
      obtain ⟨b1, b2, b3, b4⟩ := square_tie hzone.1 hzone.2 htie
      refine ⟨c, ?_, hkc'⟩
      -- a diagonal `c` would also be tied with `(c 0, 0)`
      have hdiag : c 0 = 0 ∨ c 1 = 0 := by
        by_contra hcon
        push Not at hcon
        have hlt := hmin ![c 0, 0] (fun h => hcon.1 (congrFun h 0))
          (fun h => hcon.2 (congrFun h 1).symm)
        rw [(z.cmp k ![c 0, 0]).2.2, ← hs, ← ht, es, et, qs] at hlt
        simp at hlt
        have : (c 0 : ℝ) * c 0 = c 0 ^ 2 := by ring
        linarith
      have hc : c = ![c 0, c 1] := int2_ext rfl rfl
      rw [hc] at hc0 ⊢
      generalize c 0 = g at *
      generalize c 1 = h at *
      rcases hdiag with rfl | rfl
      · interval_cases h <;>
          first
            | exact absurd (by decide) hc0
            | simp [squareXsCoeff]
      · interval_cases g <;>
          first
            | exact absurd (by decide) hc0
            | simp [squareXsCoeff]
  · have hmem : k ∈ squareMs AS ↔ ∃ c ∈ squareMsCoeff, k = symPoint B c 2 := by
      simp only [squareMs, List.mem_map]
      exact ⟨fun ⟨c, h, e⟩ => ⟨c, h, e.symm⟩, fun ⟨c, h, e⟩ => ⟨c, h, e.symm⟩⟩
    rw [hmem, z.corner, ← hs, ← ht, square_zone, square_corner_iff]
    simp only [hsym, squareMsCoeff, List.mem_cons, List.not_mem_nil, or_false, exists_eq_or_imp,
      exists_eq_left, Matrix.cons_val_zero, Matrix.cons_val_one, Matrix.cons_val_fin_one]
    norm_num

/-- The vectors of the triangular lattice and of the square lattice meet the hypotheses (see also
`C67_database_2d`). -/
example (k : Pt 2) :
    (k ∈ hexKs ![![1, 0], ![1 / 2, Real.sqrt 3 / 2]] ↔
      IsCorner (bsCalculator ![![1, 0], ![1 / 2, Real.sqrt 3 / 2]]) k) ∧
    (k ∈ squareMs ![![1, 0], ![0, 1]] ↔ IsCorner (bsCalculator ![![1, 0], ![0, 1]]) k) := by
  have h3 : Real.sqrt 3 * Real.sqrt 3 = 3 := Real.mul_self_sqrt (by norm_num)
  have h0 : Real.sqrt 3 ≠ 0 := by positivity
  refine ⟨(C67_hexagon _ ?_ ?_ ?_ k).2, (C67_square _ ?_ ?_ ?_ k).2⟩
  · simp
  · simp [gram, Fin.sum_univ_two]; nlinarith
  · simp [gram, Fin.sum_univ_two]
  · simp
  · simp [gram, Fin.sum_univ_two]
  · simp [gram, Fin.sum_univ_two]

end Verif.LDB
