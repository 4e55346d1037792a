import Verif.Proofs.NearestSpecial
import Verif.Spec.NearestBuilt
/-!
Helper lemmas: from the geometry of the clusters to the results of the calls (for C94).
-/

namespace Verif.LDB

open Verif.Latt

variable {m : ℕ} {prec : ℕ} {n0 n1 n2 : ℤ}

theorem findsNearest_of {S : Set (Pt m)} {d : ℝ} {count : ℕ} {v : Fin m → Pt m} {r : Py Built}
    (hg : Good prec S count v r) (hp : 1 ≤ prec) (hm : 1 ≤ m) (hv : ShellMonotone v)
    (hdata : ∀ L : Lat count m m, r = .ok ⟨count, m, m, L⟩ → ExactTiling S L.points v →
      NearestData S L.points v d) :
    (d ≤ roundTo prec d → FindsNearest prec S d r) ∧ (roundTo prec d < d → MissesCrossing m prec r) := by
  obtain ⟨L, h1, h2, h3, h4, h5⟩ := hg
  have hgood : Good prec S count v r := ⟨L, h1, h2, h3, h4, h5⟩
  obtain ⟨L', h1', hf⟩ := finds_of_good hgood hv
  have : L' = L := by
    rw [h1] at h1'
    have := Except.ok.inj h1'
    cases this; rfl
  subst this
  rw [h2] at h4 h3
  have hd := hdata L' h1 h4
  constructor
  · intro hr
    refine ⟨count, L', h1, fun order horder porder hporder calls only => ?_⟩
    have := nearest_bonds hd hp hr hm order horder porder hporder h3 hf calls only
    rw [h2]
    exact this
  · intro hr
    exact ⟨count, L', h1, fun order horder porder hporder calls only fold =>
      nearest_missing hd hr hm order horder porder hporder h3 hf calls only fold⟩

theorem roundTo_one (prec : ℕ) : roundTo prec 1 = 1 := by
  have : (1 : ℝ) * 10 ^ prec = ((10 ^ prec : ℤ) : ℝ) := by push_cast; ring
  rw [roundTo, this, rint_intCast]
  push_cast
  field_simp

theorem roundTo_half (hp : 1 ≤ prec) : roundTo prec (1 / 2) = 1 / 2 := by
  obtain ⟨q, rfl⟩ : ∃ q, prec = q + 1 := ⟨prec - 1, by omega⟩
  have : (1 / 2 : ℝ) * 10 ^ (q + 1) = ((5 * 10 ^ q : ℤ) : ℝ) := by push_cast; ring
  rw [roundTo, this, rint_intCast]
  push_cast
  rw [pow_succ]
  field_simp
  norm_num

theorem cell_2d (h0 : 1 ≤ n0) (h1 : 1 ≤ n1) (h2 : 1 ≤ n2) {which : String} {info : Info 2}
    (hw : commonCell which = some ⟨2, info⟩) (hc : which ≠ "chain") (hcu : which ≠ "cubic")
    {count : ℕ} {L : Lat count 2 2} (h : latticeGenerator prec which n0 n1 n2 = .ok ⟨count, 2, 2, L⟩)
    (i : Fin count) : ∃ u ∈ info.points, ∃ r : Fin 2 → ℤ,
      (∀ q, 0 ≤ r q ∧ r q < (![n0, n1] : Fin 2 → ℤ) q) ∧ L.points i = u + comb info.vectors r := by
  rw [generator_unfold h0 h1 h2, hw] at h
  dsimp only at h
  rw [if_neg hc, if_neg hcu] at h
  obtain ⟨u, hu, r, hr, he⟩ := cell_of_branch [n0, n1] rfl (by
    rintro ⟨a, b⟩ i
    fin_cases i
    · exact a
    · exact b) h i
  refine ⟨u, hu, r, fun q => ?_, he⟩
  have := hr q
  fin_cases q <;> exact this

theorem two_pos (h0 : 1 ≤ n0) (h1 : 1 ≤ n1) (q : Fin 2) : 1 ≤ (![n0, n1] : Fin 2 → ℤ) q := by
  fin_cases q
  · exact h0
  · exact h1

theorem both_chain (hp : 1 ≤ prec) (h0 : 1 ≤ n0) (h1 : 1 ≤ n1) (h2 : 1 ≤ n2) :
    FindsNearest prec chainSites 1 (latticeGenerator prec "chain" n0 n1 n2) := by
  refine (findsNearest_of (good_chain hp h0 h1 h2) hp le_rfl
    (shellMonotone_of_weaklyOrthogonal _ (weaklyOrthogonal_one _)) (fun L hL ht =>
      nearest_super chain_cell tiling_chain (fun q => by fin_cases q; exact h0) ht fun i => ?_)).1
    (roundTo_one prec).ge
  rw [generator_unfold h0 h1 h2, show commonCell "chain" = some ⟨1, chainCell⟩ by simp [commonCell]] at hL
  dsimp only at hL
  rw [if_pos rfl] at hL
  obtain ⟨u, hu, r, hr, he⟩ := cell_of_branch [n0] rfl (fun a i => by fin_cases i; exact a) hL i
  refine ⟨u, hu, r, fun q => ?_, he⟩
  have := hr q
  fin_cases q; exact this

theorem both_cubic (hp : 1 ≤ prec) (h0 : 1 ≤ n0) (h1 : 1 ≤ n1) (h2 : 1 ≤ n2) :
    FindsNearest prec cubicSites 1 (latticeGenerator prec "cubic" n0 n1 n2) := by
  refine (findsNearest_of (good_cubic hp h0 h1 h2) hp (by norm_num)
    (shellMonotone_of_weaklyOrthogonal _ (weak_cubic n0 n1 n2)) (fun L hL ht =>
      nearest_super cubic_cell tiling_cubic (fun q => by
        fin_cases q
        · exact h0
        · exact h1
        · exact h2) ht fun i => ?_)).1
    (roundTo_one prec).ge
  rw [generator_unfold h0 h1 h2, show commonCell "cubic" = some ⟨3, cubicCell⟩ by simp [commonCell]] at hL
  dsimp only at hL
  rw [if_neg (by decide), if_pos rfl] at hL
  obtain ⟨u, hu, r, hr, he⟩ := cell_of_branch [n0, n1, n2] rfl (by
    rintro ⟨a, b, c⟩ i
    fin_cases i
    · exact a
    · exact b
    · exact c) hL i
  refine ⟨u, hu, r, fun q => ?_, he⟩
  have := hr q
  fin_cases q <;> exact this

theorem both_square (hp : 1 ≤ prec) (h0 : 1 ≤ n0) (h1 : 1 ≤ n1) (h2 : 1 ≤ n2) :
    FindsNearest prec squareSites 1 (latticeGenerator prec "square" n0 n1 n2) :=
  (findsNearest_of (good_square hp h0 h1 h2) hp (by norm_num)
    (shellMonotone_of_wideAngle _ (weak_square n0 n1)) (fun _ hL ht =>
      nearest_super square_cell tiling_square (two_pos h0 h1) ht
        (cell_2d h0 h1 h2 (by simp [commonCell]) (by decide) (by decide) hL))).1 (roundTo_one prec).ge

theorem both_triangle (hp : 1 ≤ prec) (h0 : 1 ≤ n0) (h1 : 1 ≤ n1) (h2 : 1 ≤ n2) :
    FindsNearest prec triangleSites 1 (latticeGenerator prec "triangle" n0 n1 n2) :=
  (findsNearest_of (good_triangle hp h0 h1 h2) hp (by norm_num)
    (shellMonotone_of_wideAngle _ (wide_triangle n0 n1)) (fun _ hL ht =>
      nearest_super triangle_cell tiling_triangle (two_pos h0 h1) ht
        (cell_2d h0 h1 h2 (by simp [commonCell]) (by decide) (by decide) hL))).1 (roundTo_one prec).ge

theorem both_kagome (hp : 1 ≤ prec) (h0 : 1 ≤ n0) (h1 : 1 ≤ n1) (h2 : 1 ≤ n2) :
    FindsNearest prec kagomeSites (1 / 2) (latticeGenerator prec "kagome" n0 n1 n2) :=
  (findsNearest_of (good_kagome hp h0 h1 h2) hp (by norm_num)
    (shellMonotone_of_wideAngle _ (wide_triangle n0 n1)) (fun _ hL ht =>
      nearest_super kagome_cell tiling_kagome (two_pos h0 h1) ht
        (cell_2d h0 h1 h2 (by simp [commonCell]) (by decide) (by decide) hL))).1 (roundTo_half hp).ge

theorem both_honeycomb (hp : 1 ≤ prec) (h0 : 1 ≤ n0) (h1 : 1 ≤ n1) (h2 : 1 ≤ n2) :
    (1 / Real.sqrt 3 ≤ roundTo prec (1 / Real.sqrt 3) →
      FindsNearest prec honeycombSites (1 / Real.sqrt 3) (latticeGenerator prec "honeycomb" n0 n1 n2)) ∧
    (roundTo prec (1 / Real.sqrt 3) < 1 / Real.sqrt 3 →
      MissesCrossing 2 prec (latticeGenerator prec "honeycomb" n0 n1 n2)) :=
  findsNearest_of (good_honeycomb hp h0 h1 h2) hp (by norm_num)
    (shellMonotone_of_wideAngle _ (wide_triangle n0 n1)) (fun _ hL ht =>
      nearest_super honeycomb_cell tiling_honeycomb (two_pos h0 h1) ht
        (cell_2d h0 h1 h2 (by simp [commonCell]) (by decide) (by decide) hL))

theorem special_data {S : Set (Pt 2)} {d : ℝ} {τ : List (Pt 2)} {e : Fin 2 → Pt 2}
    (hc : CellData S τ e d) {D : ℕ} {zs : List (ℤ × ℤ × ℕ)} {w0 w1 : ℤ × ℤ}
    (hD : w0.1 * w1.2 - w0.2 * w1.1 = (D : ℤ)) (hD0 : D ≠ 0) (hck : Check D τ.length zs w0 w1)
    {nn : ℕ → ℕ → ℤ → ℤ → Bool} {s s' : ℕ} {δ : ℤ × ℤ}
    (hnn : ∀ s s', s < τ.length → s' < τ.length → ∀ a b : ℤ,
      ndist (τ.getD s 0 + comb e ![a, b]) (τ.getD s' 0) = d → nn s s' a b = true)
    (hδ : ndist (τ.getD s 0 + comb e ![δ.1, δ.2]) (τ.getD s' 0) = d)
    (hchk : NearCheck D zs w0 w1 nn s s' δ) {t : Pt 2} {info : Info 2}
    (hip : info.points = (zs.map (place τ e)).map (· + t))
    (hiv : info.vectors = ![comb e ![w0.1, w0.2], comb e ![w1.1, w1.2]])
    {which : String} (hw : specialInfo which = some ⟨2, info⟩) {count : ℕ} {L : Lat count 2 2}
    (h : specialCluster prec which = .ok ⟨count, 2, 2, L⟩)
    (ht : ExactTiling (shifted t S) L.points info.vectors) :
    NearestData (shifted t S) L.points info.vectors d := by
  unfold specialCluster at h
  rw [hw] at h
  rw [hiv] at ht ⊢
  refine nearest_special hc hD hD0 hck.2.1 hnn hδ hchk ht fun p => ?_
  rw [mk_points_iff h, hip, List.mem_map]
  constructor
  · rintro ⟨x, hx, rfl⟩
    obtain ⟨z, hz, rfl⟩ := List.mem_map.1 hx
    exact ⟨z, hz, rfl⟩
  · rintro ⟨z, hz, rfl⟩
    exact ⟨_, List.mem_map.2 ⟨z, hz, rfl⟩, rfl⟩

theorem special_both {S : Set (Pt 2)} {d : ℝ} {τ : List (Pt 2)} {e : Fin 2 → Pt 2}
    (hl : LTiling S τ e) (hsep : Separated (1 / 10) S)
    (hc : CellData S τ e d) {D : ℕ} {zs : List (ℤ × ℤ × ℕ)} {w0 w1 : ℤ × ℤ}
    (hD : w0.1 * w1.2 - w0.2 * w1.1 = (D : ℤ)) (hD0 : D ≠ 0) (hck : Check D τ.length zs w0 w1)
    {nn : ℕ → ℕ → ℤ → ℤ → Bool} {s s' : ℕ} {δ : ℤ × ℤ}
    (hnn : ∀ s s', s < τ.length → s' < τ.length → ∀ a b : ℤ,
      ndist (τ.getD s 0 + comb e ![a, b]) (τ.getD s' 0) = d → nn s s' a b = true)
    (hδ : ndist (τ.getD s 0 + comb e ![δ.1, δ.2]) (τ.getD s' 0) = d)
    (hchk : NearCheck D zs w0 w1 nn s s' δ) {t : Pt 2} {info : Info 2}
    (hip : info.points = (zs.map (place τ e)).map (· + t))
    (hiv : info.vectors = ![comb e ![w0.1, w0.2], comb e ![w1.1, w1.2]])
    (hne : info.points ≠ [])
    (hdet : info.vectors 0 0 * info.vectors 1 1 - info.vectors 0 1 * info.vectors 1 0 ≠ 0)
    (hmono : ShellMonotone info.vectors) (hp : 1 ≤ prec)
    {which : String} (hw : specialInfo which = some ⟨2, info⟩) :
    (d ≤ roundTo prec d → FindsNearest prec (shifted t S) d (specialCluster prec which)) ∧
    (roundTo prec d < d → MissesCrossing 2 prec (specialCluster prec which)) := by
  have htil : LTiling (shifted t S) info.points info.vectors := by
    rw [hip, hiv]
    exact (tiling_of_check hl hD hD0 hck).shift t
  exact findsNearest_of (good_special htil (hsep.shift t) hp hne hdet which hw) hp (by norm_num) hmono
    fun L hL ht => special_data hc hD hD0 hck hnn hδ hchk hip hiv hw hL ht

/-! ### The special clusters -/

theorem mono_squareCross : ShellMonotone squareCross.vectors :=
  shellMonotone_of_wideAngle _ (by simp [WideAngle, gram, Fin.sum_univ_two, squareCross]; norm_num)

theorem mono_squareZ : ShellMonotone squareZ.vectors :=
  shellMonotone_of_wideAngle _ (by simp [WideAngle, gram, Fin.sum_univ_two, squareZ]; norm_num)

theorem mono_squareS : ShellMonotone squareS.vectors :=
  shellMonotone_of_wideAngle _ (by simp [WideAngle, gram, Fin.sum_univ_two, squareS]; norm_num)

theorem mono_triangleStar : ShellMonotone triangleStar.vectors :=
  shellMonotone_of_wideAngle _ (by
    have h3 := r3_sq
    simp only [WideAngle, gram, Fin.sum_univ_two, triangleStar, Matrix.cons_val_zero,
      Matrix.cons_val_one, Matrix.cons_val_fin_one]
    nlinarith)

theorem mono_honeycombBenzene : ShellMonotone honeycombBenzene.vectors :=
  shellMonotone_of_wideAngle _ (by
    have h3 := r3_sq
    simp only [WideAngle, gram, Fin.sum_univ_two, honeycombBenzene, Matrix.cons_val_zero,
      Matrix.cons_val_one, Matrix.cons_val_fin_one]
    nlinarith)

theorem mono_honeycombGear : ShellMonotone honeycombGear.vectors :=
  shellMonotone_of_wideAngle _ (by
    have h3 := r3_sq
    simp only [WideAngle, gram, Fin.sum_univ_two, honeycombGear, Matrix.cons_val_zero,
      Matrix.cons_val_one, Matrix.cons_val_fin_one]
    nlinarith)

theorem mono_honeycombDiphenyl : ShellMonotone honeycombDiphenyl.vectors := by
  have h3 := r3_sq
  refine shellMonotone_of_weaklyOrthogonal _ ?_
  have e0 : Finset.univ.erase (0 : Fin 2) = {1} := by decide
  have e1 : Finset.univ.erase (1 : Fin 2) = {0} := by decide
  intro i
  have g00 : gram honeycombDiphenyl.vectors 0 0 = 7 := by
    simp only [gram, Fin.sum_univ_two, honeycombDiphenyl, Matrix.cons_val_zero, Matrix.cons_val_one,
      Matrix.cons_val_fin_one]
    linear_combination (1 / 4 : ℝ) * h3
  have g11 : gram honeycombDiphenyl.vectors 1 1 = 7 := by
    simp only [gram, Fin.sum_univ_two, honeycombDiphenyl, Matrix.cons_val_zero, Matrix.cons_val_one,
      Matrix.cons_val_fin_one]
    linear_combination (1 / 4 : ℝ) * h3
  have g01 : gram honeycombDiphenyl.vectors 0 1 = 11 / 2 := by
    simp only [gram, Fin.sum_univ_two, honeycombDiphenyl, Matrix.cons_val_zero, Matrix.cons_val_one,
      Matrix.cons_val_fin_one]
    linear_combination (-1 / 4 : ℝ) * h3
  fin_cases i
  · change ∑ j ∈ Finset.univ.erase (0 : Fin 2), |gram honeycombDiphenyl.vectors 0 j| ≤ gram _ 0 0
    rw [e0, Finset.sum_singleton, g01, g00]; norm_num
  · change ∑ j ∈ Finset.univ.erase (1 : Fin 2), |gram honeycombDiphenyl.vectors 1 j| ≤ gram _ 1 1
    rw [e1, Finset.sum_singleton, gram_comm, g01, g11]; norm_num

theorem near_cross (hp : 1 ≤ prec) {which : String} (hw : specialInfo which = some ⟨2, squareCross⟩) :
    FindsNearest prec (shifted ![1 / 2, 1 / 2] squareSites) 1 (specialCluster prec which) :=
  (special_both (w0 := (3, -2)) (w1 := (3, 2)) (δ := (1, 0)) tiling_square separated_square square_cell
    (by norm_num) (by norm_num) squareCross_check (fun _ _ _ _ _ _ _ => rfl) square_pair squareCross_near
    squareCross_points squareCross_vectors (by simp [squareCross]) (by simp [squareCross]; norm_num)
    mono_squareCross hp hw).1 (roundTo_one prec).ge

theorem near_z (hp : 1 ≤ prec) {which : String} (hw : specialInfo which = some ⟨2, squareZ⟩) :
    FindsNearest prec (shifted ![1 / 2, 0] squareSites) 1 (specialCluster prec which) :=
  (special_both (w0 := (1, -3)) (w1 := (3, 1)) (δ := (1, 0)) tiling_square separated_square square_cell
    (by norm_num) (by norm_num) squareZ_check (fun _ _ _ _ _ _ _ => rfl) square_pair squareZ_near
    squareZ_points squareZ_vectors (by simp [squareZ]) (by simp [squareZ]; norm_num)
    mono_squareZ hp hw).1 (roundTo_one prec).ge

theorem near_s (hp : 1 ≤ prec) {which : String} (hw : specialInfo which = some ⟨2, squareS⟩) :
    FindsNearest prec (shifted ![1 / 2, 0] squareSites) 1 (specialCluster prec which) :=
  (special_both (w0 := (3, -1)) (w1 := (1, 3)) (δ := (1, 0)) tiling_square separated_square square_cell
    (by norm_num) (by norm_num) squareS_check (fun _ _ _ _ _ _ _ => rfl) square_pair squareS_near
    squareS_points squareS_vectors (by simp [squareS]) (by simp [squareS]; norm_num)
    mono_squareS hp hw).1 (roundTo_one prec).ge

theorem near_star (hp : 1 ≤ prec) {which : String} (hw : specialInfo which = some ⟨2, triangleStar⟩) :
    FindsNearest prec (shifted ![0, 0] triangleSites) 1 (specialCluster prec which) :=
  (special_both (w0 := (3, 1)) (w1 := (-1, 4)) (δ := (1, 0)) tiling_triangle separated_triangle
    triangle_cell (by norm_num) (by norm_num) triangleStar_check (fun _ _ _ _ _ _ _ => rfl) triangle_pair
    triangleStar_near triangleStar_points triangleStar_vectors (by simp [triangleStar])
    (by
      simp only [triangleStar, Matrix.cons_val_zero, Matrix.cons_val_one, Matrix.cons_val_fin_one]
      have := r3_pos
      nlinarith) mono_triangleStar hp hw).1 (roundTo_one prec).ge

/-- Both outcomes for a honeycomb cluster. -/
def HoneyBoth (prec : ℕ) (t : Pt 2) (r : Py Built) : Prop :=
  (1 / Real.sqrt 3 ≤ roundTo prec (1 / Real.sqrt 3) →
    FindsNearest prec (shifted t honeycombSites) (1 / Real.sqrt 3) r) ∧
  (roundTo prec (1 / Real.sqrt 3) < 1 / Real.sqrt 3 → MissesCrossing 2 prec r)

theorem near_benzene (hp : 1 ≤ prec) {which : String}
    (hw : specialInfo which = some ⟨2, honeycombBenzene⟩) :
    HoneyBoth prec ![1 / 2, 0] (specialCluster prec which) :=
  special_both (w0 := (2, -1)) (w1 := (1, 1)) (δ := (0, 0)) tiling_honeycomb separated_honeycomb
    honeycomb_cell (by norm_num) (by norm_num) honeycombBenzene_check honey_nn honey_pair
    honeycombBenzene_near honeycombBenzene_points honeycombBenzene_vectors (by simp [honeycombBenzene])
    (by
      simp only [honeycombBenzene, Matrix.cons_val_zero, Matrix.cons_val_one, Matrix.cons_val_fin_one]
      have := r3_pos
      nlinarith) mono_honeycombBenzene hp hw

theorem near_diphenyl (hp : 1 ≤ prec) {which : String}
    (hw : specialInfo which = some ⟨2, honeycombDiphenyl⟩) :
    HoneyBoth prec ![0, 0] (specialCluster prec which) :=
  special_both (w0 := (3, -1)) (w1 := (2, 1)) (δ := (0, 0)) tiling_honeycomb separated_honeycomb
    honeycomb_cell (by norm_num) (by norm_num) honeycombDiphenyl_check honey_nn honey_pair
    honeycombDiphenyl_near honeycombDiphenyl_points honeycombDiphenyl_vectors (by simp [honeycombDiphenyl])
    (by
      simp only [honeycombDiphenyl, Matrix.cons_val_zero, Matrix.cons_val_one, Matrix.cons_val_fin_one]
      have := r3_pos
      nlinarith) mono_honeycombDiphenyl hp hw

theorem near_gear (hp : 1 ≤ prec) {which : String}
    (hw : specialInfo which = some ⟨2, honeycombGear⟩) :
    HoneyBoth prec ![1 / 2, 0] (specialCluster prec which) :=
  special_both (w0 := (4, -2)) (w1 := (2, 2)) (δ := (0, 0)) tiling_honeycomb separated_honeycomb
    honeycomb_cell (by norm_num) (by norm_num) honeycombGear_check honey_nn honey_pair
    honeycombGear_near honeycombGear_points honeycombGear_vectors (by simp [honeycombGear])
    (by
      simp only [honeycombGear, Matrix.cons_val_zero, Matrix.cons_val_one, Matrix.cons_val_fin_one]
      have := r3_pos
      nlinarith) mono_honeycombGear hp hw

end Verif.LDB
