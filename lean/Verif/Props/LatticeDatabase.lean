import Verif.Proofs.LatticeBuilt
/-!
# C53, C54, C66: the built-in lattices

Coordinates are exact reals.  The precision must be at least one decimal digit: with zero digits the
sites of the honeycomb lattice are closer than the tolerance and it is refused
(`C53_precision_zero_refuses_honeycomb`).
-/

namespace Verif.LDB

open Verif.Latt

variable {m : ℕ} {prec : ℕ} {n0 n1 n2 : ℤ}

/-- The call returns a lattice of `count` points with the translation vectors `v`, which tiles `S`
exactly. -/
def ReturnsTiling (S : Set (Pt m)) (count : ℕ) (v : Fin m → Pt m) (r : Py Built) : Prop :=
  ∃ L : Lat count m m, r = .ok ⟨count, m, m, L⟩ ∧ L.vectors = v ∧ ExactTiling S L.points L.vectors

theorem returns_of_good {S : Set (Pt m)} {count : ℕ} {v v' : Fin m → Pt m} {r : Py Built}
    (h : Good prec S count v r) (hv : v = v') : ReturnsTiling S count v' r := by
  obtain ⟨L, h1, h2, _, h4, _⟩ := h
  exact ⟨L, h1, h2.trans hv, h4⟩

/-- **C53 (chain).** -/
theorem C53_chain (hp : 1 ≤ prec) (h0 : 1 ≤ n0) (h1 : 1 ≤ n1) (h2 : 1 ≤ n2) :
    ReturnsTiling chainSites n0.toNat ![![(n0 : ℝ)]] (latticeGenerator prec "chain" n0 n1 n2) :=
  returns_of_good (good_chain hp h0 h1 h2) (by
    funext i a; fin_cases i; fin_cases a; simp [scaleVectors, chainCell])

/-- **C53 (square).** -/
theorem C53_square (hp : 1 ≤ prec) (h0 : 1 ≤ n0) (h1 : 1 ≤ n1) (h2 : 1 ≤ n2) :
    ReturnsTiling squareSites (n0.toNat * n1.toNat) ![![(n0 : ℝ), 0], ![0, (n1 : ℝ)]]
      (latticeGenerator prec "square" n0 n1 n2) :=
  returns_of_good (good_square hp h0 h1 h2) (by
    funext i a; fin_cases i <;> fin_cases a <;> simp [scaleVectors, squareCell])

/-- **C53 (cubic).** -/
theorem C53_cubic (hp : 1 ≤ prec) (h0 : 1 ≤ n0) (h1 : 1 ≤ n1) (h2 : 1 ≤ n2) :
    ReturnsTiling cubicSites (n0.toNat * n1.toNat * n2.toNat)
      ![![(n0 : ℝ), 0, 0], ![0, (n1 : ℝ), 0], ![0, 0, (n2 : ℝ)]]
      (latticeGenerator prec "cubic" n0 n1 n2) :=
  returns_of_good (good_cubic hp h0 h1 h2) (by
    funext i a; fin_cases i <;> fin_cases a <;> simp [scaleVectors, cubicCell])

/-- The translation vectors of the supercells of the lattices built on triangles. -/
theorem scale_triangle (n0 n1 : ℤ) : scaleVectors ![n0, n1] triangleCell.vectors =
    ![![(n0 : ℝ), 0], ![(n1 : ℝ) / 2, n1 * (Real.sqrt 3 / 2)]] := by
  funext i a; fin_cases i <;> fin_cases a <;> simp [scaleVectors, triangleCell, r3] <;> ring

/-- **C53 (triangle).** -/
theorem C53_triangle (hp : 1 ≤ prec) (h0 : 1 ≤ n0) (h1 : 1 ≤ n1) (h2 : 1 ≤ n2) :
    ReturnsTiling triangleSites (n0.toNat * n1.toNat)
      ![![(n0 : ℝ), 0], ![(n1 : ℝ) / 2, n1 * (Real.sqrt 3 / 2)]]
      (latticeGenerator prec "triangle" n0 n1 n2) :=
  returns_of_good (good_triangle hp h0 h1 h2) (scale_triangle n0 n1)

/-- **C53 (honeycomb).** -/
theorem C53_honeycomb (hp : 1 ≤ prec) (h0 : 1 ≤ n0) (h1 : 1 ≤ n1) (h2 : 1 ≤ n2) :
    ReturnsTiling honeycombSites (n0.toNat * n1.toNat * 2)
      ![![(n0 : ℝ), 0], ![(n1 : ℝ) / 2, n1 * (Real.sqrt 3 / 2)]]
      (latticeGenerator prec "honeycomb" n0 n1 n2) :=
  returns_of_good (good_honeycomb hp h0 h1 h2) (scale_triangle n0 n1)

/-- **C53 (kagome).** -/
theorem C53_kagome (hp : 1 ≤ prec) (h0 : 1 ≤ n0) (h1 : 1 ≤ n1) (h2 : 1 ≤ n2) :
    ReturnsTiling kagomeSites (n0.toNat * n1.toNat * 3)
      ![![(n0 : ℝ), 0], ![(n1 : ℝ) / 2, n1 * (Real.sqrt 3 / 2)]]
      (latticeGenerator prec "kagome" n0 n1 n2) :=
  returns_of_good (good_kagome hp h0 h1 h2) (scale_triangle n0 n1)

/-- **C53 (refusals).** A size below one is an AssertionError, whatever the name; with good sizes an
unknown name is a KeyError. -/
theorem C53_refuses (prec : ℕ) (which : String) (n0 n1 n2 : ℤ) :
    (n0 < 1 ∨ n1 < 1 ∨ n2 < 1 → latticeGenerator prec which n0 n1 n2 = .error .assertionError) ∧
    (1 ≤ n0 → 1 ≤ n1 → 1 ≤ n2 →
      which ∉ ["chain", "square", "triangle", "honeycomb", "kagome", "cubic"] →
      latticeGenerator prec which n0 n1 n2 = .error .keyError) := by
  constructor
  · intro h
    unfold latticeGenerator
    by_cases h0 : 1 ≤ n0
    · rw [show pyAssert (decide (1 ≤ n0)) = .ok () by simp [pyAssert, h0]]
      by_cases h1 : 1 ≤ n1
      · rw [show pyAssert (decide (1 ≤ n1)) = .ok () by simp [pyAssert, h1]]
        rw [show pyAssert (decide (1 ≤ n2)) = .error .assertionError by
          simp [pyAssert]; omega]
        rfl
      · rw [show pyAssert (decide (1 ≤ n1)) = .error .assertionError by simp [pyAssert]; omega]
        rfl
    · rw [show pyAssert (decide (1 ≤ n0)) = .error .assertionError by simp [pyAssert]; omega]
      rfl
  · intro h0 h1 h2 hw
    rw [generator_unfold h0 h1 h2]
    simp only [List.mem_cons, List.not_mem_nil, or_false, not_or] at hw
    obtain ⟨a, b, c, d, e, f⟩ := hw
    rw [commonCell, if_neg a, if_neg b, if_neg c, if_neg d, if_neg e, if_neg f]

/-- With zero decimal digits the tolerance is one and the honeycomb cell is refused. -/
theorem C53_precision_zero_refuses_honeycomb :
    latticeGenerator 0 "honeycomb" 1 1 1 = .error .valueError := by
  rw [generator_unfold le_rfl le_rfl le_rfl,
    show commonCell "honeycomb" = some ⟨2, honeycombCell⟩ by simp [commonCell]]
  dsimp only
  rw [if_neg (by decide), if_neg (by decide), if_pos ⟨rfl, rfl⟩, mkLattice, init,
    if_neg (by norm_num), if_neg (by norm_num), dif_pos rfl, initSame]
  have hd : ndist (honeycombCell.points.get ⟨0, by simp [honeycombCell]⟩)
      (honeycombCell.points.get ⟨1, by simp [honeycombCell]⟩) < tol 0 := by
    rw [ndist_two, tol]
    rw [Real.sqrt_lt' (by norm_num)]
    simp only [honeycombCell, List.get_eq_getElem, List.getElem_cons_zero, List.getElem_cons_succ,
      Matrix.cons_val_zero, Matrix.cons_val_one, Matrix.cons_val_fin_one, div_eq_mul_inv, inv_r3]
    have := r3_sq
    ring_nf
    nlinarith
  have hex : ∃ i j, i < j ∧
      ndist (honeycombCell.points.get i) (honeycombCell.points.get j) < tol 0 :=
    ⟨⟨0, by simp [honeycombCell]⟩, ⟨1, by simp [honeycombCell]⟩, by simp, hd⟩
  by_cases hv : ∃ i j, i < j ∧ ndist (honeycombCell.vectors i) (honeycombCell.vectors j) < tol 0
  · rw [if_pos hv]; rfl
  · rw [if_neg hv, if_pos hex]; rfl

/-- A case with a non-trivial site: the honeycomb lattice of 3 x 2 cells has twelve points. -/
example : ∃ L : Lat 12 2 2, latticeGenerator 4 "honeycomb" 3 2 1 = .ok ⟨12, 2, 2, L⟩ ∧
    ∃! q : Fin 12 × (Fin 2 → ℤ), (![7, 1 / (2 * Real.sqrt 3)] : Pt 2) = L.points q.1 + comb L.vectors q.2 := by
  obtain ⟨L, h1, _, h3⟩ := C53_honeycomb (prec := 4) (n0 := 3) (n1 := 2) (n2 := 1) (by norm_num)
    (by norm_num) (by norm_num) (by norm_num)
  refine ⟨L, h1, h3.covers _ ?_⟩
  refine ⟨![7, 0], ⟨7, 0, ?_⟩, Or.inr ?_⟩
  · refine pt2_ext ?_ ?_ <;> norm_num
  · refine pt2_ext ?_ ?_ <;> norm_num

/-! ### C54 -/

/-- **C54 (12-site cross).** Under each of its names. -/
theorem C54_cross (hp : 1 ≤ prec) (which : String) (hw : which ∈ ["square_cross", "square_12", "cross"]) :
    ReturnsTiling (shifted ![1 / 2, 1 / 2] squareSites) 12 ![![3, -2], ![3, 2]]
      (specialCluster prec which) :=
  returns_of_good (good_special tiling_squareCross (separated_square.shift _) hp (by simp [squareCross])
    (by simp [squareCross]; norm_num) which (by simp [specialInfo, hw])) rfl

/-- **C54 (10-site Z).** -/
theorem C54_z (hp : 1 ≤ prec) (which : String) (hw : which ∈ ["square_z", "z"]) :
    ReturnsTiling (shifted ![1 / 2, 0] squareSites) 10 ![![1, -3], ![3, 1]]
      (specialCluster prec which) :=
  returns_of_good (good_special tiling_squareZ (separated_square.shift _) hp (by simp [squareZ])
    (by simp [squareZ]; norm_num) which (by
      simp only [List.mem_cons, List.not_mem_nil, or_false] at hw
      rcases hw with rfl | rfl <;> simp [specialInfo])) rfl

/-- **C54 (10-site S).** -/
theorem C54_s (hp : 1 ≤ prec) (which : String) (hw : which ∈ ["square_s", "s"]) :
    ReturnsTiling (shifted ![1 / 2, 0] squareSites) 10 ![![3, -1], ![1, 3]]
      (specialCluster prec which) :=
  returns_of_good (good_special tiling_squareS (separated_square.shift _) hp (by simp [squareS])
    (by simp [squareS]; norm_num) which (by
      simp only [List.mem_cons, List.not_mem_nil, or_false] at hw
      rcases hw with rfl | rfl <;> simp [specialInfo])) rfl

/-- **C54 (star of David).** -/
theorem C54_star (hp : 1 ≤ prec) (which : String)
    (hw : which ∈ ["triangle_star", "triangle_13", "star", "SD"]) :
    ReturnsTiling (shifted ![0, 0] triangleSites) 13
      ![![7 / 2, Real.sqrt 3 / 2], ![1, 2 * Real.sqrt 3]] (specialCluster prec which) :=
  returns_of_good (good_special tiling_triangleStar (separated_triangle.shift _) hp
    (by simp [triangleStar]) (by
      simp only [triangleStar, Matrix.cons_val_zero, Matrix.cons_val_one, Matrix.cons_val_fin_one]
      have := r3_pos
      nlinarith) which (by
      simp only [List.mem_cons, List.not_mem_nil, or_false] at hw
      rcases hw with rfl | rfl | rfl | rfl <;> simp [specialInfo])) rfl

/-- **C54 (benzene ring).** -/
theorem C54_benzene (hp : 1 ≤ prec) (which : String)
    (hw : which ∈ ["honeycomb_benzene", "honeycomb_6", "benzene"]) :
    ReturnsTiling (shifted ![1 / 2, 0] honeycombSites) 6
      ![![3 / 2, -Real.sqrt 3 / 2], ![3 / 2, Real.sqrt 3 / 2]] (specialCluster prec which) :=
  returns_of_good (good_special tiling_honeycombBenzene (separated_honeycomb.shift _) hp
    (by simp [honeycombBenzene]) (by
      simp only [honeycombBenzene, Matrix.cons_val_zero, Matrix.cons_val_one, Matrix.cons_val_fin_one]
      have := r3_pos
      nlinarith) which (by
      simp only [List.mem_cons, List.not_mem_nil, or_false] at hw
      rcases hw with rfl | rfl | rfl <;> simp [specialInfo])) rfl

/-- **C54 (diphenyl).** -/
theorem C54_diphenyl (hp : 1 ≤ prec) (which : String)
    (hw : which ∈ ["honeycomb_diphenyl", "honeycomb_10", "diphenyl"]) :
    ReturnsTiling (shifted ![0, 0] honeycombSites) 10
      ![![5 / 2, -Real.sqrt 3 / 2], ![5 / 2, Real.sqrt 3 / 2]] (specialCluster prec which) :=
  returns_of_good (good_special tiling_honeycombDiphenyl (separated_honeycomb.shift _) hp
    (by simp [honeycombDiphenyl]) (by
      simp only [honeycombDiphenyl, Matrix.cons_val_zero, Matrix.cons_val_one, Matrix.cons_val_fin_one]
      have := r3_pos
      nlinarith) which (by
      simp only [List.mem_cons, List.not_mem_nil, or_false] at hw
      rcases hw with rfl | rfl | rfl <;> simp [specialInfo])) rfl

/-- **C54 (gear).** -/
theorem C54_gear (hp : 1 ≤ prec) (which : String)
    (hw : which ∈ ["honeycomb_gear", "honeycomb_24", "gear"]) :
    ReturnsTiling (shifted ![1 / 2, 0] honeycombSites) 24
      ![![3, -Real.sqrt 3], ![3, Real.sqrt 3]] (specialCluster prec which) :=
  returns_of_good (good_special tiling_honeycombGear (separated_honeycomb.shift _) hp
    (by simp [honeycombGear]) (by
      simp only [honeycombGear, Matrix.cons_val_zero, Matrix.cons_val_one, Matrix.cons_val_fin_one]
      have := r3_pos
      nlinarith) which (by
      simp only [List.mem_cons, List.not_mem_nil, or_false] at hw
      rcases hw with rfl | rfl | rfl <;> simp [specialInfo])) rfl

/-- **C54 (refusals).** Any other name is a KeyError. -/
theorem C54_refuses (prec : ℕ) (which : String)
    (hw : which ∉ ["square_cross", "square_12", "cross", "square_z", "z", "square_s", "s",
      "triangle_star", "triangle_13", "star", "SD", "honeycomb_benzene", "honeycomb_6", "benzene",
      "honeycomb_diphenyl", "honeycomb_10", "diphenyl", "honeycomb_gear", "honeycomb_24", "gear"]) :
    specialCluster prec which = .error .keyError := by
  simp only [List.mem_cons, List.not_mem_nil, or_false, not_or] at hw
  simp [specialCluster, specialInfo, hw]

/-- The cross under an alias, and a site of its lattice. -/
example : ∃ L : Lat 12 2 2, specialCluster 4 "cross" = .ok ⟨12, 2, 2, L⟩ ∧
    ∃! q : Fin 12 × (Fin 2 → ℤ), (![15 / 2, -7 / 2] : Pt 2) = L.points q.1 + comb L.vectors q.2 := by
  obtain ⟨L, h1, _, h3⟩ := C54_cross (prec := 4) (by norm_num) "cross" (by simp)
  refine ⟨L, h1, h3.covers _ ?_⟩
  refine ⟨7, -4, pt2_ext ?_ ?_⟩ <;> norm_num

/-! ### C66 -/

/-- The call returns a lattice on which every site `s` of `S` is decomposed into the one cluster point
and the one translation that make it up, and is folded to the index of that point. -/
def FoldsEverySite (prec : ℕ) (S : Set (Pt m)) (r : Py Built) : Prop :=
  ∃ (n : ℕ) (L : Lat n m m), r = .ok ⟨n, m, m, L⟩ ∧ ∀ s ∈ S, ∃! q : Fin n × (Fin m → ℤ),
    s = L.points q.1 + comb L.vectors q.2 ∧
    decompose prec L s = some (.ok (L.points q.1, comb L.vectors q.2)) ∧
    ∀ near, IsNearest near → getIndexFold near prec L s = some (.ok q.1)

theorem folds_of_good {S : Set (Pt m)} {count : ℕ} {v : Fin m → Pt m} {r : Py Built}
    (h : Good prec S count v r) (hv : ShellMonotone v) : FoldsEverySite prec S r := by
  obtain ⟨L, h1, h2⟩ := finds_of_good h hv
  obtain ⟨L', h1', _, _, h4, _⟩ := h
  have : L' = L := by
    rw [h1] at h1'
    have := Except.ok.inj h1'
    cases this; rfl
  subst this
  refine ⟨count, L', h1, fun s hs => ?_⟩
  obtain ⟨q, hq, hu⟩ := h4.covers s hs
  refine ⟨q, ⟨hq, ?_, ?_⟩, fun q' hq' => hu q' hq'.1⟩
  · have := (h2 q.1 q.2).1
    rwa [← hq] at this
  · have := (h2 q.1 q.2).2
    rwa [← hq] at this

/-- **C66 (generated lattices).** -/
theorem C66_generated (hp : 1 ≤ prec) (h0 : 1 ≤ n0) (h1 : 1 ≤ n1) (h2 : 1 ≤ n2) :
    FoldsEverySite prec chainSites (latticeGenerator prec "chain" n0 n1 n2) ∧
    FoldsEverySite prec squareSites (latticeGenerator prec "square" n0 n1 n2) ∧
    FoldsEverySite prec triangleSites (latticeGenerator prec "triangle" n0 n1 n2) ∧
    FoldsEverySite prec honeycombSites (latticeGenerator prec "honeycomb" n0 n1 n2) ∧
    FoldsEverySite prec kagomeSites (latticeGenerator prec "kagome" n0 n1 n2) ∧
    FoldsEverySite prec cubicSites (latticeGenerator prec "cubic" n0 n1 n2) :=
  ⟨folds_of_good (good_chain hp h0 h1 h2)
      (shellMonotone_of_weaklyOrthogonal _ (weaklyOrthogonal_one _)),
    folds_of_good (good_square hp h0 h1 h2) (shellMonotone_of_wideAngle _ (weak_square n0 n1)),
    folds_of_good (good_triangle hp h0 h1 h2) (shellMonotone_of_wideAngle _ (wide_triangle n0 n1)),
    folds_of_good (good_honeycomb hp h0 h1 h2) (shellMonotone_of_wideAngle _ (wide_triangle n0 n1)),
    folds_of_good (good_kagome hp h0 h1 h2) (shellMonotone_of_wideAngle _ (wide_triangle n0 n1)),
    folds_of_good (good_cubic hp h0 h1 h2)
      (shellMonotone_of_weaklyOrthogonal _ (weak_cubic n0 n1 n2))⟩

/-- Turns a special cluster into a folding statement. -/
theorem folds_special {S : Set (Pt 2)} {info : Info 2} (h : LTiling S info.points info.vectors)
    (hsep : Separated (1 / 10) S) (hprec : 1 ≤ prec) (hl : info.points ≠ [])
    (hdet : info.vectors 0 0 * info.vectors 1 1 - info.vectors 0 1 * info.vectors 1 0 ≠ 0)
    (hmono : ShellMonotone info.vectors)
    (which : String) (hw : specialInfo which = some ⟨2, info⟩) :
    FoldsEverySite prec S (specialCluster prec which) :=
  folds_of_good (good_special h hsep hprec hl hdet which hw) hmono

/-- **C66 (special clusters).** -/
theorem C66_special (hp : 1 ≤ prec) :
    FoldsEverySite prec (shifted ![1 / 2, 1 / 2] squareSites) (specialCluster prec "cross") ∧
    FoldsEverySite prec (shifted ![1 / 2, 0] squareSites) (specialCluster prec "z") ∧
    FoldsEverySite prec (shifted ![1 / 2, 0] squareSites) (specialCluster prec "s") ∧
    FoldsEverySite prec (shifted ![0, 0] triangleSites) (specialCluster prec "star") ∧
    FoldsEverySite prec (shifted ![1 / 2, 0] honeycombSites) (specialCluster prec "benzene") ∧
    FoldsEverySite prec (shifted ![0, 0] honeycombSites) (specialCluster prec "diphenyl") ∧
    FoldsEverySite prec (shifted ![1 / 2, 0] honeycombSites) (specialCluster prec "gear") := by
  have h3 := r3_sq
  have hpos := r3_pos
  refine ⟨?_, ?_, ?_, ?_, ?_, ?_, ?_⟩
  · refine folds_special tiling_squareCross (separated_square.shift _) hp (by simp [squareCross])
      (by simp [squareCross]; norm_num) (shellMonotone_of_wideAngle _ ?_) _ (by simp [specialInfo])
    simp [WideAngle, gram, Fin.sum_univ_two, squareCross]; norm_num
  · refine folds_special tiling_squareZ (separated_square.shift _) hp (by simp [squareZ])
      (by simp [squareZ]; norm_num) (shellMonotone_of_wideAngle _ ?_) _ (by simp [specialInfo])
    simp [WideAngle, gram, Fin.sum_univ_two, squareZ]; norm_num
  · refine folds_special tiling_squareS (separated_square.shift _) hp (by simp [squareS])
      (by simp [squareS]; norm_num) (shellMonotone_of_wideAngle _ ?_) _ (by simp [specialInfo])
    simp [WideAngle, gram, Fin.sum_univ_two, squareS]; norm_num
  · refine folds_special tiling_triangleStar (separated_triangle.shift _) hp (by simp [triangleStar])
      (by simp only [triangleStar, Matrix.cons_val_zero, Matrix.cons_val_one, Matrix.cons_val_fin_one]
          nlinarith) (shellMonotone_of_wideAngle _ ?_) _ (by simp [specialInfo])
    simp only [WideAngle, gram, Fin.sum_univ_two, triangleStar, Matrix.cons_val_zero,
      Matrix.cons_val_one, Matrix.cons_val_fin_one]
    nlinarith
  · refine folds_special tiling_honeycombBenzene (separated_honeycomb.shift _) hp
      (by simp [honeycombBenzene])
      (by simp only [honeycombBenzene, Matrix.cons_val_zero, Matrix.cons_val_one, Matrix.cons_val_fin_one]
          nlinarith) (shellMonotone_of_wideAngle _ ?_) _ (by simp [specialInfo])
    simp only [WideAngle, gram, Fin.sum_univ_two, honeycombBenzene, Matrix.cons_val_zero,
      Matrix.cons_val_one, Matrix.cons_val_fin_one]
    nlinarith
  · refine folds_special tiling_honeycombDiphenyl (separated_honeycomb.shift _) hp
      (by simp [honeycombDiphenyl])
      (by simp only [honeycombDiphenyl, Matrix.cons_val_zero, Matrix.cons_val_one, Matrix.cons_val_fin_one]
          nlinarith) (shellMonotone_of_weaklyOrthogonal _ ?_) _ (by simp [specialInfo])
    have e0 : Finset.univ.erase (0 : Fin 2) = {1} := by decide
    have e1 : Finset.univ.erase (1 : Fin 2) = {0} := by decide
    intro i
    have g00 : gram honeycombDiphenyl.vectors 0 0 = 7 := by
      simp only [gram, Fin.sum_univ_two, honeycombDiphenyl, Matrix.cons_val_zero, Matrix.cons_val_one,
        Matrix.cons_val_fin_one]
      linear_combination (1 / 4 : ℝ) * h3
    have g11 : gram honeycombDiphenyl.vectors 1 1 = 7 := by
      simp only [gram, Fin.sum_univ_two, honeycombDiphenyl, Matrix.cons_val_zero, Matrix.cons_val_one,
        Matrix.cons_val_fin_one]
      linear_combination (1 / 4 : ℝ) * h3
    have g01 : gram honeycombDiphenyl.vectors 0 1 = 11 / 2 := by
      simp only [gram, Fin.sum_univ_two, honeycombDiphenyl, Matrix.cons_val_zero, Matrix.cons_val_one,
        Matrix.cons_val_fin_one]
      linear_combination (-1 / 4 : ℝ) * h3
    fin_cases i
    · change ∑ j ∈ Finset.univ.erase (0 : Fin 2), |gram honeycombDiphenyl.vectors 0 j| ≤ gram _ 0 0
      rw [e0, Finset.sum_singleton, g01, g00]; norm_num
    · change ∑ j ∈ Finset.univ.erase (1 : Fin 2), |gram honeycombDiphenyl.vectors 1 j| ≤ gram _ 1 1
      rw [e1, Finset.sum_singleton, gram_comm, g01, g11]; norm_num
  · refine folds_special tiling_honeycombGear (separated_honeycomb.shift _) hp
      (by simp [honeycombGear])
      (by simp only [honeycombGear, Matrix.cons_val_zero, Matrix.cons_val_one, Matrix.cons_val_fin_one]
          nlinarith) (shellMonotone_of_wideAngle _ ?_) _ (by simp [specialInfo])
    simp only [WideAngle, gram, Fin.sum_univ_two, honeycombGear, Matrix.cons_val_zero,
      Matrix.cons_val_one, Matrix.cons_val_fin_one]
    nlinarith

/-- The site (100, -41) of a 4 x 7 square cluster is folded to one of its 28 points. -/
example : ∃ (L : Lat 28 2 2) (i : Fin 28), latticeGenerator 4 "square" 4 7 1 = .ok ⟨28, 2, 2, L⟩ ∧
    ∀ near, IsNearest near → getIndexFold near 4 L ![100, -41] = some (.ok i) := by
  obtain ⟨n, L, h1, h2⟩ := (C66_generated (prec := 4) (n0 := 4) (n1 := 7) (n2 := 1) (by norm_num)
    (by norm_num) (by norm_num) (by norm_num)).2.1
  obtain ⟨L', h1', _⟩ := C53_square (prec := 4) (n0 := 4) (n1 := 7) (n2 := 1) (by norm_num)
    (by norm_num) (by norm_num) (by norm_num)
  have : n = 28 := by
    rw [h1] at h1'
    exact congrArg Built.n (Except.ok.inj h1')
  subst this
  obtain ⟨q, ⟨_, _, hq⟩, _⟩ := h2 ![100, -41] ⟨100, -41, by push_cast; rfl⟩
  exact ⟨L, q.1, h1, hq⟩

end Verif.LDB
