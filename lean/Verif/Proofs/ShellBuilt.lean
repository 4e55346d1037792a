import Verif.Proofs.ShellSuper
/-!
Helper lemmas: from the neighbour shells of the clusters to the results of the calls (for C95).
-/

namespace Verif.LDB

open Verif.Latt

variable {m : ℕ} {prec nth : ℕ} {n0 n1 n2 : ℤ}

theorem findsShell_of {S : Set (Pt m)} {d : ℝ} {count : ℕ} {v : Fin m → Pt m} {r : Py Built}
    (hg : Good prec S count v r) (hm : 1 ≤ m) (hv : ShellMonotone v)
    (hdata : ∀ L : Lat count m m, r = .ok ⟨count, m, m, L⟩ → ExactTiling S L.points v →
      ShellData prec S L.points v nth d) : FindsShell prec S nth d r := by
  obtain ⟨L, h1, h2, h3, h4, h5⟩ := hg
  have hgood : Good prec S count v r := ⟨L, h1, h2, h3, h4, h5⟩
  obtain ⟨L', h1', hf⟩ := finds_of_good hgood hv
  have : L' = L := by
    rw [h1] at h1'
    have := Except.ok.inj h1'
    cases this; rfl
  subst this
  rw [h2] at h4 h3
  have hd := hdata L' h1 h4
  refine ⟨count, L', h1, fun order horder porder hporder calls only => ?_⟩
  have := shell_bonds hd hm order horder porder hporder h3 hf calls only
  rw [h2]
  exact this

theorem cell_1d (h0 : 1 ≤ n0) (h1 : 1 ≤ n1) (h2 : 1 ≤ n2) {count : ℕ} {L : Lat count 1 1}
    (hL : latticeGenerator prec "chain" n0 n1 n2 = .ok ⟨count, 1, 1, L⟩) (i : Fin count) :
    ∃ u ∈ chainCell.points, ∃ r : Fin 1 → ℤ, (∀ q, 0 ≤ r q ∧ r q < (![n0] : Fin 1 → ℤ) q) ∧
      L.points i = u + comb chainCell.vectors r := by
  rw [generator_unfold h0 h1 h2, show commonCell "chain" = some ⟨1, chainCell⟩ by simp [commonCell]] at hL
  dsimp only at hL
  rw [if_pos rfl] at hL
  obtain ⟨u, hu, r, hr, he⟩ := cell_of_branch [n0] rfl (fun a i => by fin_cases i; exact a) hL i
  refine ⟨u, hu, r, fun q => ?_, he⟩
  have := hr q
  fin_cases q; exact this

theorem cell_3d (h0 : 1 ≤ n0) (h1 : 1 ≤ n1) (h2 : 1 ≤ n2) {count : ℕ} {L : Lat count 3 3}
    (hL : latticeGenerator prec "cubic" n0 n1 n2 = .ok ⟨count, 3, 3, L⟩) (i : Fin count) :
    ∃ u ∈ cubicCell.points, ∃ r : Fin 3 → ℤ, (∀ q, 0 ≤ r q ∧ r q < (![n0, n1, n2] : Fin 3 → ℤ) q) ∧
      L.points i = u + comb cubicCell.vectors r := by
  rw [generator_unfold h0 h1 h2, show commonCell "cubic" = some ⟨3, cubicCell⟩ by simp [commonCell]] at hL
  dsimp only at hL
  rw [if_neg (by decide), if_pos rfl] at hL
  obtain ⟨u, hu, r, hr, he⟩ := cell_of_branch [n0, n1, n2] rfl (by
    rintro ⟨a, b, c⟩ i
    fin_cases i
    · exact a
    · exact b
    · exact c) hL i
  refine ⟨u, hu, r, fun q => ?_, he⟩
  have := hr q
  fin_cases q <;> exact this

theorem one_pos' (h0 : 1 ≤ n0) (q : Fin 1) : 1 ≤ (![n0] : Fin 1 → ℤ) q := by
  fin_cases q; exact h0

theorem three_pos (h0 : 1 ≤ n0) (h1 : 1 ≤ n1) (h2 : 1 ≤ n2) (q : Fin 3) :
    1 ≤ (![n0, n1, n2] : Fin 3 → ℤ) q := by
  fin_cases q
  · exact h0
  · exact h1
  · exact h2

variable {d : ℝ}

theorem shell_chain (hp : 1 ≤ prec) (h0 : 1 ≤ n0) (h1 : 1 ≤ n1) (h2 : 1 ≤ n2) (htwo : 2 ≤ nth)
    (hnth : IsNthDistance chainSites nth d) (hd : 12 * d + 1 ≤ 10 ^ prec) (w0 : d < n0) :
    FindsShell prec chainSites nth d (latticeGenerator prec "chain" n0 n1 n2) :=
  findsShell_of (good_chain hp h0 h1 h2) le_rfl
    (shellMonotone_of_weaklyOrthogonal _ (weaklyOrthogonal_one _)) fun L hL ht =>
      shell_of_form tiling_chain chain_cell zero_le_one chain_form hp ht (cell_1d h0 h1 h2 hL) htwo hnth
        hd (fun q => by fin_cases q; simpa using w0) (one_pos' h0)

theorem shell_cubic (hp : 1 ≤ prec) (h0 : 1 ≤ n0) (h1 : 1 ≤ n1) (h2 : 1 ≤ n2) (htwo : 2 ≤ nth)
    (hnth : IsNthDistance cubicSites nth d) (hd : 12 * d + 1 ≤ 10 ^ prec) (w0 : d < n0) (w1 : d < n1)
    (w2 : d < n2) : FindsShell prec cubicSites nth d (latticeGenerator prec "cubic" n0 n1 n2) :=
  findsShell_of (good_cubic hp h0 h1 h2) (by norm_num)
    (shellMonotone_of_weaklyOrthogonal _ (weak_cubic n0 n1 n2)) fun L hL ht =>
      shell_of_form tiling_cubic cubic_cell zero_le_one cubic_form hp ht (cell_3d h0 h1 h2 hL) htwo hnth
        hd (fun q => by
          rw [one_mul, add_zero]
          fin_cases q
          · exact w0
          · exact w1
          · exact w2) (three_pos h0 h1 h2)

theorem shell_square (hp : 1 ≤ prec) (h0 : 1 ≤ n0) (h1 : 1 ≤ n1) (h2 : 1 ≤ n2) (htwo : 2 ≤ nth)
    (hnth : IsNthDistance squareSites nth d) (hd : 12 * d + 1 ≤ 10 ^ prec) (w0 : d < n0) (w1 : d < n1) :
    FindsShell prec squareSites nth d (latticeGenerator prec "square" n0 n1 n2) :=
  findsShell_of (good_square hp h0 h1 h2) (by norm_num)
    (shellMonotone_of_wideAngle _ (weak_square n0 n1)) fun L hL ht =>
      shell_of_form tiling_square square_cell zero_le_one square_form hp ht
        (cell_2d h0 h1 h2 (by simp [commonCell]) (by decide) (by decide) hL) htwo hnth
        hd (fun q => by
          rw [one_mul, add_zero]
          fin_cases q
          · exact w0
          · exact w1) (two_pos h0 h1)

theorem shell_triangle (hp : 1 ≤ prec) (h0 : 1 ≤ n0) (h1 : 1 ≤ n1) (h2 : 1 ≤ n2) (htwo : 2 ≤ nth)
    (hnth : IsNthDistance triangleSites nth d) (hd : 12 * d + 1 ≤ 10 ^ prec)
    (w0 : 2 / Real.sqrt 3 * d < n0) (w1 : 2 / Real.sqrt 3 * d < n1) :
    FindsShell prec triangleSites nth d (latticeGenerator prec "triangle" n0 n1 n2) :=
  findsShell_of (good_triangle hp h0 h1 h2) (by norm_num)
    (shellMonotone_of_wideAngle _ (wide_triangle n0 n1)) fun L hL ht =>
      shell_of_form tiling_triangle triangle_cell two_inv_sqrt3_nn triangle_form hp ht
        (cell_2d h0 h1 h2 (by simp [commonCell]) (by decide) (by decide) hL) htwo hnth
        hd (fun q => by
          rw [add_zero]
          fin_cases q
          · exact w0
          · exact w1) (two_pos h0 h1)

theorem shell_honeycomb (hp : 1 ≤ prec) (h0 : 1 ≤ n0) (h1 : 1 ≤ n1) (h2 : 1 ≤ n2) (htwo : 2 ≤ nth)
    (hnth : IsNthDistance honeycombSites nth d) (hd : 12 * d + 1 ≤ 10 ^ prec)
    (w0 : 2 / Real.sqrt 3 * d + 2 / 3 < n0) (w1 : 2 / Real.sqrt 3 * d + 2 / 3 < n1) :
    FindsShell prec honeycombSites nth d (latticeGenerator prec "honeycomb" n0 n1 n2) :=
  findsShell_of (good_honeycomb hp h0 h1 h2) (by norm_num)
    (shellMonotone_of_wideAngle _ (wide_triangle n0 n1)) fun L hL ht =>
      shell_of_form tiling_honeycomb honeycomb_cell two_inv_sqrt3_nn honeycomb_form hp ht
        (cell_2d h0 h1 h2 (by simp [commonCell]) (by decide) (by decide) hL) htwo hnth
        hd (fun q => by
          fin_cases q
          · exact w0
          · exact w1) (two_pos h0 h1)

theorem shell_kagome (hp : 1 ≤ prec) (h0 : 1 ≤ n0) (h1 : 1 ≤ n1) (h2 : 1 ≤ n2) (htwo : 2 ≤ nth)
    (hnth : IsNthDistance kagomeSites nth d) (hd : 12 * d + 1 ≤ 10 ^ prec)
    (w0 : 2 / Real.sqrt 3 * d + 1 / 2 < n0) (w1 : 2 / Real.sqrt 3 * d + 1 / 2 < n1) :
    FindsShell prec kagomeSites nth d (latticeGenerator prec "kagome" n0 n1 n2) :=
  findsShell_of (good_kagome hp h0 h1 h2) (by norm_num)
    (shellMonotone_of_wideAngle _ (wide_triangle n0 n1)) fun L hL ht =>
      shell_of_form tiling_kagome kagome_cell two_inv_sqrt3_nn kagome_form hp ht
        (cell_2d h0 h1 h2 (by simp [commonCell]) (by decide) (by decide) hL) htwo hnth
        hd (fun q => by
          fin_cases q
          · exact w0
          · exact w1) (two_pos h0 h1)

end Verif.LDB
