import Verif.Proofs.LatticeClusters
/-!
Helper lemmas: what `lattice_generator` and `special_cluster` return.
-/

namespace Verif.LDB

open Verif.Latt

variable {m : ℕ}

/-- The result is an accepted lattice of `count` points that tiles `S`, no two points equivalent. -/
def Good (prec : ℕ) (S : Set (Pt m)) (count : ℕ) (v : Fin m → Pt m) (r : Py Built) : Prop :=
  ∃ L : Lat count m m, r = .ok ⟨count, m, m, L⟩ ∧ L.vectors = v ∧
    init prec L.points L.vectors = .ok L ∧ ExactTiling S L.points L.vectors ∧
    Inequivalent prec L.points L.vectors

theorem good_mk {S : Set (Pt m)} {l : List (Pt m)} {v : Fin m → Pt m} (h : LTiling S l v)
    (hsep : Separated (1 / 10) S) {prec : ℕ} (hprec : 1 ≤ prec) (hm : m ≤ 3)
    (hl : l ≠ []) (hv : LinearIndependent ℝ v) {count : ℕ} (hc : l.length = count) :
    Good prec S count v (mkLattice prec l v) := by
  subst hc
  obtain ⟨⟨L, hL⟩, hin⟩ := h.accepted hsep (tol_le hprec) hm hl hv
  obtain ⟨h1, h2, _⟩ := C46_reciprocal_dual hL
  refine ⟨L, ?_, h2, ?_, ?_, ?_⟩
  · rw [mkLattice, hL]; rfl
  · rw [h1, h2]; exact hL
  · rw [h1, h2]; exact h.exact
  · rw [h1, h2]; exact hin

theorem good_super {S : Set (Pt m)} {info : Info m} (h : LTiling S info.points info.vectors)
    (hsep : Separated (1 / 10) S) {prec : ℕ} (hprec : 1 ≤ prec) (hm : m ≤ 3)
    (hl : info.points ≠ []) (hv : LinearIndependent ℝ info.vectors) (nums : List ℤ)
    (hlen : nums.length = m) (hns : ∀ i : Fin m, 1 ≤ nums.getD i 0) {count : ℕ}
    (hc : (∏ i : Fin m, (nums.getD i 0).toNat) * info.points.length = count) :
    Good prec S count (scaleVectors (fun i : Fin m => nums.getD i 0) info.vectors)
      (superLattice prec info nums) := by
  rw [superLattice, if_pos hlen]
  refine good_mk (h.super _ hns) hsep hprec hm ?_ (linearIndependent_scale hv _ hns)
    ((length_superPoints _ _ _).trans hc)
  intro h0
  have := congrArg List.length h0
  rw [length_superPoints, List.length_nil, Nat.mul_eq_zero] at this
  rcases this with h1 | h1
  · rw [Finset.prod_eq_zero_iff] at h1
    obtain ⟨i, _, hi⟩ := h1
    have := hns i
    omega
  · exact hl (List.length_eq_zero_iff.1 h1)

theorem good_congr {prec : ℕ} {S : Set (Pt m)} {count : ℕ} {v v' : Fin m → Pt m} {r : Py Built}
    (h : Good prec S count v r) (hv : v = v') : Good prec S count v' r := hv ▸ h

/-- The common part of all the branches of `lattice_generator`. -/
theorem good_branch {S : Set (Pt m)} {info : Info m} (h : LTiling S info.points info.vectors)
    (hsep : Separated (1 / 10) S) {prec : ℕ} (hprec : 1 ≤ prec) (hm : m ≤ 3)
    (hl : info.points ≠ []) (hv : LinearIndependent ℝ info.vectors) (nums : List ℤ)
    (hlen : nums.length = m) (hns : ∀ i : Fin m, 1 ≤ nums.getD i 0) {count : ℕ}
    (hc : (∏ i : Fin m, (nums.getD i 0).toNat) * info.points.length = count)
    {ones : Prop} [Decidable ones] (hones : ones → ∀ i : Fin m, nums.getD i 0 = 1) :
    Good prec S count (scaleVectors (fun i : Fin m => nums.getD i 0) info.vectors)
      (if ones then mkLattice prec info.points info.vectors else superLattice prec info nums) := by
  by_cases ho : ones
  · rw [if_pos ho]
    have h1 := hones ho
    have h2 : (fun i : Fin m => nums.getD i 0) = fun _ => 1 := funext h1
    rw [h2, scaleVectors_one]
    refine good_mk h hsep hprec hm hl hv ?_
    rw [← hc, Finset.prod_eq_one (fun i _ => by rw [h1 i]; rfl), one_mul]
  · rw [if_neg ho]
    exact good_super h hsep hprec hm hl hv nums hlen hns hc

variable {prec : ℕ} {n0 n1 n2 : ℤ}

theorem generator_unfold (h0 : 1 ≤ n0) (h1 : 1 ≤ n1) (h2 : 1 ≤ n2) (which : String) :
    latticeGenerator prec which n0 n1 n2 =
      match commonCell which with
      | none => raise .keyError
      | some ⟨_, info⟩ =>
        if which = "chain" then
          if n0 = 1 then mkLattice prec info.points info.vectors
          else superLattice prec info [n0]
        else if which = "cubic" then
          if n0 = 1 ∧ n1 = 1 ∧ n2 = 1 then mkLattice prec info.points info.vectors
          else superLattice prec info [n0, n1, n2]
        else
          if n0 = 1 ∧ n1 = 1 then mkLattice prec info.points info.vectors
          else superLattice prec info [n0, n1] := by
  unfold latticeGenerator
  rw [show pyAssert (decide (1 ≤ n0)) = .ok () by simp [pyAssert, h0],
    show pyAssert (decide (1 ≤ n1)) = .ok () by simp [pyAssert, h1],
    show pyAssert (decide (1 ≤ n2)) = .ok () by simp [pyAssert, h2]]
  rfl

theorem good_2d {S : Set (Pt 2)} {info : Info 2} (h : LTiling S info.points info.vectors)
    (hsep : Separated (1 / 10) S) (hprec : 1 ≤ prec) (hl : info.points ≠ [])
    (hv : LinearIndependent ℝ info.vectors) (h0 : 1 ≤ n0) (h1 : 1 ≤ n1) (h2 : 1 ≤ n2)
    (which : String) (hw : commonCell which = some ⟨2, info⟩) (hc : which ≠ "chain")
    (hcu : which ≠ "cubic") :
    Good prec S (n0.toNat * n1.toNat * info.points.length)
      (scaleVectors ![n0, n1] info.vectors) (latticeGenerator prec which n0 n1 n2) := by
  rw [generator_unfold h0 h1 h2, hw]
  dsimp only
  rw [if_neg hc, if_neg hcu]
  have e : (fun i : Fin 2 => [n0, n1].getD i 0) = ![n0, n1] := by
    funext i; fin_cases i <;> rfl
  have hns : ∀ i : Fin 2, 1 ≤ [n0, n1].getD i 0 := by
    intro i; fin_cases i
    · exact h0
    · exact h1
  have := good_branch h hsep hprec (by norm_num) hl hv [n0, n1] rfl hns
    (count := n0.toNat * n1.toNat * info.points.length) (by rw [Fin.prod_univ_two]; rfl)
    (ones := n0 = 1 ∧ n1 = 1) (by
      rintro ⟨a, b⟩ i
      fin_cases i
      · exact a
      · exact b)
  rw [e] at this
  exact this

theorem good_chain (hprec : 1 ≤ prec) (h0 : 1 ≤ n0) (h1 : 1 ≤ n1) (h2 : 1 ≤ n2) :
    Good prec chainSites n0.toNat (scaleVectors ![n0] chainCell.vectors)
      (latticeGenerator prec "chain" n0 n1 n2) := by
  rw [generator_unfold h0 h1 h2, show commonCell "chain" = some ⟨1, chainCell⟩ by simp [commonCell]]
  dsimp only
  rw [if_pos rfl]
  have e : (fun i : Fin 1 => [n0].getD i 0) = ![n0] := by
    funext i; fin_cases i; rfl
  have := good_branch tiling_chain separated_chain hprec (by norm_num) (by simp [chainCell]) li_chain
    [n0] rfl (fun i => by fin_cases i; exact h0)
    (count := n0.toNat) (by rw [Fin.prod_univ_one]; simp [chainCell])
    (ones := n0 = 1) (fun a i => by fin_cases i; exact a)
  rw [e] at this
  exact this

theorem good_cubic (hprec : 1 ≤ prec) (h0 : 1 ≤ n0) (h1 : 1 ≤ n1) (h2 : 1 ≤ n2) :
    Good prec cubicSites (n0.toNat * n1.toNat * n2.toNat) (scaleVectors ![n0, n1, n2] cubicCell.vectors)
      (latticeGenerator prec "cubic" n0 n1 n2) := by
  rw [generator_unfold h0 h1 h2, show commonCell "cubic" = some ⟨3, cubicCell⟩ by simp [commonCell]]
  dsimp only
  rw [if_neg (by decide), if_pos rfl]
  have e : (fun i : Fin 3 => [n0, n1, n2].getD i 0) = ![n0, n1, n2] := by
    funext i; fin_cases i <;> rfl
  have := good_branch tiling_cubic separated_cubic hprec (by norm_num) (by simp [cubicCell]) li_cubic
    [n0, n1, n2] rfl (fun i => by
      fin_cases i
      · exact h0
      · exact h1
      · exact h2)
    (count := n0.toNat * n1.toNat * n2.toNat) (by rw [Fin.prod_univ_three]; simp [cubicCell])
    (ones := n0 = 1 ∧ n1 = 1 ∧ n2 = 1) (by
      rintro ⟨a, b, c⟩ i
      fin_cases i
      · exact a
      · exact b
      · exact c)
  rw [e] at this
  exact this

theorem good_square (hprec : 1 ≤ prec) (h0 : 1 ≤ n0) (h1 : 1 ≤ n1) (h2 : 1 ≤ n2) :
    Good prec squareSites (n0.toNat * n1.toNat) (scaleVectors ![n0, n1] squareCell.vectors)
      (latticeGenerator prec "square" n0 n1 n2) := by
  have := good_2d tiling_square separated_square hprec (by simp [squareCell]) li_square h0 h1 h2
    "square" (by simp [commonCell]) (by decide) (by decide)
  simpa [squareCell] using this

theorem good_triangle (hprec : 1 ≤ prec) (h0 : 1 ≤ n0) (h1 : 1 ≤ n1) (h2 : 1 ≤ n2) :
    Good prec triangleSites (n0.toNat * n1.toNat) (scaleVectors ![n0, n1] triangleCell.vectors)
      (latticeGenerator prec "triangle" n0 n1 n2) := by
  have := good_2d tiling_triangle separated_triangle hprec (by simp [triangleCell]) li_triangle h0 h1 h2
    "triangle" (by simp [commonCell]) (by decide) (by decide)
  have e : triangleCell.points.length = 1 := rfl
  rwa [e, mul_one] at this

theorem good_honeycomb (hprec : 1 ≤ prec) (h0 : 1 ≤ n0) (h1 : 1 ≤ n1) (h2 : 1 ≤ n2) :
    Good prec honeycombSites (n0.toNat * n1.toNat * 2) (scaleVectors ![n0, n1] honeycombCell.vectors)
      (latticeGenerator prec "honeycomb" n0 n1 n2) :=
  good_2d tiling_honeycomb separated_honeycomb hprec (by simp [honeycombCell]) li_triangle h0 h1 h2
    "honeycomb" (by simp [commonCell]) (by decide) (by decide)

theorem good_kagome (hprec : 1 ≤ prec) (h0 : 1 ≤ n0) (h1 : 1 ≤ n1) (h2 : 1 ≤ n2) :
    Good prec kagomeSites (n0.toNat * n1.toNat * 3) (scaleVectors ![n0, n1] kagomeCell.vectors)
      (latticeGenerator prec "kagome" n0 n1 n2) :=
  good_2d tiling_kagome separated_kagome hprec (by simp [kagomeCell]) li_triangle h0 h1 h2
    "kagome" (by simp [commonCell]) (by decide) (by decide)

/-! ### Special clusters -/

theorem good_special {S : Set (Pt 2)} {info : Info 2} (h : LTiling S info.points info.vectors)
    (hsep : Separated (1 / 10) S) (hprec : 1 ≤ prec) (hl : info.points ≠ [])
    (hdet : info.vectors 0 0 * info.vectors 1 1 - info.vectors 0 1 * info.vectors 1 0 ≠ 0)
    (which : String) (hw : specialInfo which = some ⟨2, info⟩) :
    Good prec S info.points.length info.vectors (specialCluster prec which) := by
  unfold specialCluster
  rw [hw]
  exact good_mk h hsep hprec (by norm_num) hl (li_two hdet) rfl

/-! ### Folding -/

/-- For two-dimensional supercells of the hexagonal lattices. -/
theorem wide_triangle (n0 n1 : ℤ) : WideAngle (scaleVectors ![n0, n1] triangleCell.vectors) := by
  have := r3_sq
  simp only [WideAngle, gram, Fin.sum_univ_two, scaleVectors, triangleCell, Matrix.cons_val_zero,
    Matrix.cons_val_one, Matrix.cons_val_fin_one]
  nlinarith [mul_nonneg (sq_nonneg (n0 : ℝ)) (sq_nonneg (n1 : ℝ))]

theorem weak_square (n0 n1 : ℤ) : WideAngle (scaleVectors ![n0, n1] squareCell.vectors) := by
  simp [WideAngle, gram, Fin.sum_univ_two, scaleVectors, squareCell]
  exact mul_nonneg (mul_self_nonneg _) (mul_self_nonneg _)

theorem weak_cubic (n0 n1 n2 : ℤ) : WeaklyOrthogonal (scaleVectors ![n0, n1, n2] cubicCell.vectors) := by
  intro i
  rw [Finset.sum_eq_zero]
  · exact gram_self_nonneg _ _
  · intro j hj
    have hj' : j ≠ i := Finset.ne_of_mem_erase hj
    rw [abs_eq_zero, gram, Fin.sum_univ_three]
    fin_cases i <;> fin_cases j <;> simp_all [scaleVectors, cubicCell]

theorem finds_of_good {S : Set (Pt m)} {count : ℕ} {v : Fin m → Pt m} {r : Py Built}
    (h : Good prec S count v r) (hv : ShellMonotone v) :
    ∃ L : Lat count m m, r = .ok ⟨count, m, m, L⟩ ∧ ∀ i c, FindsTranslate prec L i c := by
  obtain ⟨L, h1, h2, h3, h4, h5⟩ := h
  refine ⟨L, h1, fun i c => findsTranslate_of_decompose h3 ?_⟩
  obtain ⟨_, _, g3, _⟩ := C46_reciprocal_dual h3
  exact decompose_translate g3 h5 (by rw [h2]; exact hv) i c

end Verif.LDB
