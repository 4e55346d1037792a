import Verif.Props.LatticeSymmetryDB
/-!
# C67: the coefficients for translation vectors at 120 degrees

`_HEXAGON_MS_COEFF_120` and `_HEXAGON_KS_COEFF_120` are provided for vectors at 120 degrees.
-/

namespace Verif.LDB

open Verif.Latt

/-- the sign of the second coefficient reversed -/
def flip1 (c : Fin 2 → ℤ) : Fin 2 → ℤ := ![c 0, -c 1]

theorem flip1_flip1 (c : Fin 2 → ℤ) : flip1 (flip1 c) = c := by
  funext i; fin_cases i <;> simp [flip1]

theorem comb_flip (B : Fin 2 → Pt 2) (c : Fin 2 → ℤ) : comb ![B 0, -B 1] c = comb B (flip1 c) := by
  funext a
  rw [comb_two', comb_two']
  simp [flip1]

theorem flip1_eq_zero {c : Fin 2 → ℤ} : flip1 c = 0 ↔ c = 0 := by
  constructor
  · intro h
    rw [← flip1_flip1 c, h]
    funext i; fin_cases i <;> simp [flip1]
  · rintro rfl
    funext i; fin_cases i <;> simp [flip1]

theorem inZone_flip (B : Fin 2 → Pt 2) (k : Pt 2) : InFirstBZ ![B 0, -B 1] k ↔ InFirstBZ B k := by
  simp only [InFirstBZ, comb_flip]
  constructor
  · intro h c
    have := h (flip1 c)
    rwa [flip1_flip1] at this
  · intro h c
    exact h _

theorem corner_flip (B : Fin 2 → Pt 2) (k : Pt 2) : IsCorner ![B 0, -B 1] k ↔ IsCorner B k := by
  rw [IsCorner, IsCorner, inZone_flip]
  refine and_congr_right fun _ => ?_
  simp only [comb_flip]
  constructor
  · rintro ⟨c, d, h, h1, h2⟩
    refine ⟨flip1 c, flip1 d, ?_, h1, h2⟩
    simp only [flip1, Matrix.cons_val_zero, Matrix.cons_val_one, Matrix.cons_val_fin_one]
    intro h'
    apply h
    linarith
  · rintro ⟨c, d, h, h1, h2⟩
    refine ⟨flip1 c, flip1 d, ?_, by rwa [flip1_flip1], by rwa [flip1_flip1]⟩
    simp only [flip1, Matrix.cons_val_zero, Matrix.cons_val_one, Matrix.cons_val_fin_one]
    intro h'
    apply h
    linarith

theorem middle_flip (B : Fin 2 → Pt 2) (k : Pt 2) : IsEdgeMiddle ![B 0, -B 1] k ↔ IsEdgeMiddle B k := by
  simp only [IsEdgeMiddle, comb_flip]
  constructor
  · rintro ⟨c, h0, h1, h2⟩
    refine ⟨flip1 c, fun h => h0 (flip1_eq_zero.mp h), h1, fun d hd hdc => ?_⟩
    have := h2 (flip1 d) (fun h => hd (flip1_eq_zero.mp h)) (fun h => hdc (by rw [← h, flip1_flip1]))
    rwa [flip1_flip1] at this
  · rintro ⟨c, h0, h1, h2⟩
    refine ⟨flip1 c, fun h => h0 (flip1_eq_zero.mp h), by rwa [flip1_flip1], fun d hd hdc => ?_⟩
    exact h2 (flip1 d) (fun h => hd (flip1_eq_zero.mp h)) (fun h => hdc (by rw [← h, flip1_flip1]))

theorem bs_flip (AS : Fin 2 → Pt 2) :
    bsCalculator ![AS 0, -AS 1] = ![bsCalculator AS 0, -bsCalculator AS 1] := by
  have e : AS 0 0 * -AS 1 1 - AS 0 1 * -AS 1 0 = -(AS 0 0 * AS 1 1 - AS 0 1 * AS 1 0) := by ring
  rw [bs_two, bs_two]
  simp only [Matrix.cons_val_zero, Matrix.cons_val_one, Matrix.cons_val_fin_one, Pi.neg_apply, e, div_neg]
  funext i a
  fin_cases i <;> fin_cases a <;> simp

theorem sym_flip (B : Fin 2 → Pt 2) (c : Fin 2 → ℤ) (d : ℝ) :
    symPoint ![B 0, -B 1] c d = symPoint B (flip1 c) d := by
  funext a
  rw [symPoint, symPoint, comb_flip]

/-- **C67 (vectors at 120 degrees).** For two vectors of equal length at 120 degrees, the points with the
coefficients `_HEXAGON_MS_COEFF_120` (halved) are exactly the middles of the edges and those with
`_HEXAGON_KS_COEFF_120` (divided by three) exactly the corners of the first Brillouin zone. -/
theorem C67_hexagon_120 (AS : Fin 2 → Pt 2) (hdet : AS 0 0 * AS 1 1 - AS 0 1 * AS 1 0 ≠ 0)
    (h1 : gram AS 0 0 = gram AS 1 1) (h2 : 2 * gram AS 0 1 = -gram AS 0 0) (k : Pt 2) :
    (k ∈ hexMs120.map (fun c => symPoint (bsCalculator AS) c 2) ↔ IsEdgeMiddle (bsCalculator AS) k) ∧
    (k ∈ hexKs120.map (fun c => symPoint (bsCalculator AS) c 3) ↔ IsCorner (bsCalculator AS) k) := by
  obtain ⟨e1, e2⟩ := C67_hexagon ![AS 0, -AS 1]
    (by simp only [Matrix.cons_val_zero, Matrix.cons_val_one, Matrix.cons_val_fin_one, Pi.neg_apply]
        intro h; apply hdet; linarith)
    (by simpa [gram, Fin.sum_univ_two] using h1)
    (by simp only [gram, Fin.sum_univ_two, Matrix.cons_val_zero, Matrix.cons_val_one, Matrix.cons_val_fin_one,
          Pi.neg_apply] at h2 ⊢
        linarith) k
  rw [bs_flip, middle_flip] at e1
  rw [bs_flip, corner_flip] at e2
  rw [← e1, ← e2]
  clear e1 e2
  simp only [hexMs, hexKs, bs_flip, sym_flip, List.mem_map]
  constructor
  · constructor
    · rintro ⟨c, hc, rfl⟩
      refine ⟨flip1 c, ?_, by rw [flip1_flip1]⟩
      clear hdet h1 h2
      revert c; decide
    · rintro ⟨c, hc, rfl⟩
      refine ⟨flip1 c, ?_, rfl⟩
      clear hdet h1 h2
      revert c; decide
  · constructor
    · rintro ⟨c, hc, rfl⟩
      refine ⟨flip1 c, ?_, by rw [flip1_flip1]⟩
      clear hdet h1 h2
      revert c; decide
    · rintro ⟨c, hc, rfl⟩
      refine ⟨flip1 c, ?_, rfl⟩
      clear hdet h1 h2
      revert c; decide

/-- The triangular lattice with vectors at 120 degrees meets the hypotheses. -/
example : ∃ AS : Fin 2 → Pt 2, AS 0 0 * AS 1 1 - AS 0 1 * AS 1 0 ≠ 0 ∧ gram AS 0 0 = gram AS 1 1 ∧
    2 * gram AS 0 1 = -gram AS 0 0 := by
  have h3 := r3_sq
  have hpos := r3_pos
  refine ⟨![![1, 0], ![-1 / 2, r3 / 2]], ?_, ?_, ?_⟩ <;>
    simp only [gram, Fin.sum_univ_two, Matrix.cons_val_zero, Matrix.cons_val_one, Matrix.cons_val_fin_one]
  · nlinarith
  · nlinarith
  · norm_num

end Verif.LDB
