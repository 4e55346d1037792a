import Verif.Proofs.Numbering
import Verif.Props.LatticeDatabase
/-!
# C123: the points of a generated lattice are numbered cell by cell, row by row

`lattice_generator` documents no order, but indices of sites, states and matrix elements all follow the order of
`Lattice.points`: the cells in the order of `itertools.product`, the last direction fastest, and the points of a cell in the
order of the table.
-/

namespace Verif.LDB

open Verif.Latt

variable {m : ℕ} {prec : ℕ} {n0 n1 n2 : ℤ}

/-- **C123 (chain).** -/
theorem C123_chain (hp : 1 ≤ prec) (h0 : 1 ≤ n0) (h1 : 1 ≤ n1) (h2 : 1 ≤ n2) :
    Numbers n0.toNat (fun i => ![(i : ℝ)]) (latticeGenerator prec "chain" n0 n1 n2) := by
  obtain ⟨L, hL, -⟩ := C53_chain hp h0 h1 h2
  refine ⟨L, hL, fun i => ?_⟩
  rw [generator_unfold h0 h1 h2, show commonCell "chain" = some ⟨1, chainCell⟩ by simp [commonCell]] at hL
  dsimp only at hL
  rw [if_pos rfl] at hL
  rw [branch_numbers (nums := [n0]) rfl (fun i : ℕ => ![(i : ℤ)])
    ((congrArg (prodRange 1) (by funext q; fin_cases q; rfl)).trans (prodRange_one n0))
    (fun h => ⟨by rw [h]; rfl, by funext q; fin_cases q; rfl⟩) hL i]
  funext a
  fin_cases a
  simp [chainCell, comb, Nat.mod_one]

/-- **C123 (square).** -/
theorem C123_square (hp : 1 ≤ prec) (h0 : 1 ≤ n0) (h1 : 1 ≤ n1) (h2 : 1 ≤ n2) :
    Numbers (n0.toNat * n1.toNat) (fun i => ![((i / n1.toNat : ℕ) : ℝ), ((i % n1.toNat : ℕ) : ℝ)])
      (latticeGenerator prec "square" n0 n1 n2) := by
  obtain ⟨L, hL, -⟩ := C53_square hp h0 h1 h2
  refine ⟨L, hL, fun i => ?_⟩
  rw [numbers_2d h0 h1 h2 (info := squareCell) (by simp [commonCell]) (by decide) (by decide) hL i]
  rw [comb_square]
  simp [squareCell, Nat.mod_one]

/-- **C123 (triangle).** -/
theorem C123_triangle (hp : 1 ≤ prec) (h0 : 1 ≤ n0) (h1 : 1 ≤ n1) (h2 : 1 ≤ n2) :
    Numbers (n0.toNat * n1.toNat) (fun i => triangleSite (i / n1.toNat) (i % n1.toNat))
      (latticeGenerator prec "triangle" n0 n1 n2) := by
  obtain ⟨L, hL, -⟩ := C53_triangle hp h0 h1 h2
  refine ⟨L, hL, fun i => ?_⟩
  rw [numbers_2d h0 h1 h2 (info := triangleCell) (by simp [commonCell]) (by decide) (by decide) hL i]
  rw [comb_triangle]
  funext a
  fin_cases a <;> simp [triangleCell, Nat.mod_one]

/-- **C123 (honeycomb).** The two points of a cell follow each other, the lower one first. -/
theorem C123_honeycomb (hp : 1 ≤ prec) (h0 : 1 ≤ n0) (h1 : 1 ≤ n1) (h2 : 1 ≤ n2) :
    Numbers (n0.toNat * n1.toNat * 2)
      (fun i => triangleSite (i / 2 / n1.toNat) (i / 2 % n1.toNat) +
        if i % 2 = 0 then ![0, -(1 / (2 * Real.sqrt 3))] else ![0, 1 / (2 * Real.sqrt 3)])
      (latticeGenerator prec "honeycomb" n0 n1 n2) := by
  obtain ⟨L, hL, -⟩ := C53_honeycomb hp h0 h1 h2
  refine ⟨L, hL, fun i => ?_⟩
  rw [numbers_2d h0 h1 h2 (info := honeycombCell) (by simp [commonCell]) (by decide) (by decide) hL i]
  have hlen : honeycombCell.points.length = 2 := rfl
  rw [hlen, show honeycombCell.vectors = triangleCell.vectors from rfl, comb_triangle]
  rcases Nat.mod_two_eq_zero_or_one (i : ℕ) with h | h <;> simp only [h] <;> congr 1 <;> funext a <;> fin_cases a <;>
    simp [honeycombCell, r3] <;> ring

/-- **C123 (kagome).** The three points of a cell follow each other. -/
theorem C123_kagome (hp : 1 ≤ prec) (h0 : 1 ≤ n0) (h1 : 1 ≤ n1) (h2 : 1 ≤ n2) :
    Numbers (n0.toNat * n1.toNat * 3)
      (fun i => triangleSite (i / 3 / n1.toNat) (i / 3 % n1.toNat) +
        if i % 3 = 0 then ![0, 0] else if i % 3 = 1 then ![1 / 4, Real.sqrt 3 / 4] else ![1 / 2, 0])
      (latticeGenerator prec "kagome" n0 n1 n2) := by
  obtain ⟨L, hL, -⟩ := C53_kagome hp h0 h1 h2
  refine ⟨L, hL, fun i => ?_⟩
  rw [numbers_2d h0 h1 h2 (info := kagomeCell) (by simp [commonCell]) (by decide) (by decide) hL i]
  have hlen : kagomeCell.points.length = 3 := rfl
  rw [hlen, show kagomeCell.vectors = triangleCell.vectors from rfl, comb_triangle]
  have h3 : (i : ℕ) % 3 = 0 ∨ (i : ℕ) % 3 = 1 ∨ (i : ℕ) % 3 = 2 := by omega
  rcases h3 with h | h | h <;> simp only [h] <;> congr 1

/-- **C123 (cubic).** -/
theorem C123_cubic (hp : 1 ≤ prec) (h0 : 1 ≤ n0) (h1 : 1 ≤ n1) (h2 : 1 ≤ n2) :
    Numbers (n0.toNat * n1.toNat * n2.toNat)
      (fun i => ![((i / (n1.toNat * n2.toNat) : ℕ) : ℝ), ((i / n2.toNat % n1.toNat : ℕ) : ℝ), ((i % n2.toNat : ℕ) : ℝ)])
      (latticeGenerator prec "cubic" n0 n1 n2) := by
  obtain ⟨L, hL, -⟩ := C53_cubic hp h0 h1 h2
  refine ⟨L, hL, fun i => ?_⟩
  rw [generator_unfold h0 h1 h2, show commonCell "cubic" = some ⟨3, cubicCell⟩ by simp [commonCell]] at hL
  dsimp only at hL
  rw [if_neg (by decide), if_pos rfl] at hL
  rw [branch_numbers (nums := [n0, n1, n2]) rfl
    (fun i : ℕ => ![((i / (n1.toNat * n2.toNat) : ℕ) : ℤ), ((i / n2.toNat % n1.toNat : ℕ) : ℤ), ((i % n2.toNat : ℕ) : ℤ)])
    ((congrArg (prodRange 3) (by funext q; fin_cases q <;> rfl)).trans (prodRange_three n0 n1 n2))
    (fun h => ⟨by rw [h.1, h.2.1, h.2.2]; rfl, by funext q; fin_cases q <;> simp⟩) hL i]
  rw [comb_cubic]
  simp [cubicCell, Nat.mod_one]

/-! ### The hypotheses are met -/

/-- Point 4 of the 2 × 3 square lattice is (1, 1). -/
example : ∃ L : Lat 6 2 2, latticeGenerator 4 "square" 2 3 1 = .ok ⟨6, 2, 2, L⟩ ∧ L.points 4 = ![1, 1] := by
  obtain ⟨L, h1, h2⟩ := C123_square (prec := 4) (n0 := 2) (n1 := 3) (n2 := 1) (by norm_num) (by norm_num) (by norm_num)
    (by norm_num)
  have := h2 (⟨4, by decide⟩ : Fin 6)
  refine ⟨L, h1, this.trans ?_⟩
  change (![((4 / 3 : ℕ) : ℝ), ((4 % 3 : ℕ) : ℝ)] : Pt 2) = ![1, 1]
  norm_num

end Verif.LDB
