import Verif.Proofs.NeighborShells
import Verif.Proofs.NearestBuilt
/-!
Helper lemmas: neighbour shells of the supercells built by `lattice_generator` (for C95).
-/

namespace Verif.LDB

open Verif.Latt

variable {m : ℕ} {prec nth : ℕ} {S : Set (Pt m)} {d : ℝ}

/-- Every site of the block of cells is a point of the supercell. -/
theorem super_back {count : ℕ} {l : List (Pt m)} {V : Fin m → Pt m} (hl : LTiling S l V)
    {ns : Fin m → ℤ} {points : Fin count → Pt m}
    (ht : ExactTiling S points (scaleVectors ns V))
    (hcell : ∀ i, ∃ u ∈ l, ∃ r : Fin m → ℤ, (∀ q, 0 ≤ r q ∧ r q < ns q) ∧ points i = u + comb V r)
    {u : Pt m} (hu : u ∈ l) {r : Fin m → ℤ} (hr : ∀ q, 0 ≤ r q ∧ r q < ns q) :
    ∃ i, points i = u + comb V r := by
  obtain ⟨⟨i, c⟩, hq, -⟩ := ht.covers _ (hl.inside u hu r)
  obtain ⟨u', hu', r', hr', hi⟩ := hcell i
  dsimp only at hq
  rw [hi, comb_scale, add_assoc, ← comb_add] at hq
  obtain ⟨e1, e2⟩ := hl.uniq u hu u' hu' r _ hq
  refine ⟨i, ?_⟩
  rw [hi, e1]
  congr 2
  funext q
  have := congrFun e2 q
  simp only [Pi.add_apply] at this
  have h1 := hr q
  have h2 := hr' q
  have hc0 : c q = 0 := by
    by_contra hne
    rcases lt_or_gt_of_ne hne with hlt | hgt
    · have : ns q * c q ≤ ns q * (-1) := mul_le_mul_of_nonneg_left (by omega) (by omega)
      linarith
    · have : ns q * 1 ≤ ns q * c q := mul_le_mul_of_nonneg_left (by omega) (by omega)
      linarith
  rw [hc0] at this
  omega

/-- A pair of cells one step apart gives a pair on the first shell of the supercell. -/
theorem super_outer {count : ℕ} {l : List (Pt m)} {V : Fin m → Pt m} (hl : LTiling S l V)
    {ns : Fin m → ℤ} (hns : ∀ q, 1 ≤ ns q) {points : Fin count → Pt m}
    (ht : ExactTiling S points (scaleVectors ns V))
    (hcell : ∀ i, ∃ u ∈ l, ∃ r : Fin m → ℤ, (∀ q, 0 ≤ r q ∧ r q < ns q) ∧ points i = u + comb V r)
    {q : Fin m} {u u' : Pt m} (hu : u ∈ l) (hu' : u' ∈ l) :
    ∃ c, OnShell c 1 ∧ ∃ i j, ndist (points i + comb (scaleVectors ns V) c) (points j) =
      ndist (u + comb V (Pi.single q 1)) u' := by
  obtain ⟨j, hj⟩ := super_back hl ht hcell hu' (r := Pi.single q (ns q - 1)) fun x => by
    by_cases hx : x = q
    · subst hx; have := hns x; simp; omega
    · rw [Pi.single_eq_of_ne hx]; have := hns x; omega
  obtain ⟨i, hi⟩ := super_back hl ht hcell hu (r := 0) fun x => by
    have := hns x; simp only [Pi.zero_apply]; omega
  refine ⟨Pi.single q 1, ⟨fun x => ?_, q, by simp⟩, i, j, ?_⟩
  · by_cases hx : x = q
    · subst hx; simp
    · rw [Pi.single_eq_of_ne hx]; simp
  · rw [hi, hj, comb_scale, comb_zero, add_zero, ndist_eq, ndist_eq]
    have : (fun i => ns i * (Pi.single q 1 : Fin m → ℤ) i) =
        (Pi.single q 1 : Fin m → ℤ) + Pi.single q (ns q - 1) := by
      funext x
      by_cases hx : x = q
      · subst hx; simp
      · simp [Pi.single_eq_of_ne hx]
    rw [this, comb_add]
    congr 1; abel

/-- The distances of the lattice by cell indices. -/
theorem distance_cell {l : List (Pt m)} {V : Fin m → Pt m} (hl : LTiling S l V) {x : ℝ}
    (hx : x ∈ Distances S) :
    ∃ u ∈ l, ∃ u' ∈ l, ∃ a : Fin m → ℤ, (a ≠ 0 ∨ u ≠ u') ∧ ndist (u + comb V a) u' = x := by
  obtain ⟨s, hs, t, ht, hst, rfl⟩ := hx
  obtain ⟨u, hu, a, rfl⟩ := hl.ex s hs
  obtain ⟨u', hu', b, rfl⟩ := hl.ex t ht
  refine ⟨u, hu, u', hu', a - b, ?_, ?_⟩
  · by_contra hc
    push Not at hc
    exact hst (by rw [hc.2, sub_eq_zero.1 hc.1])
  · rw [ndist_eq, ndist_eq, comb_sub]; congr 1; abel

theorem shell_super {count : ℕ} {l : List (Pt m)} {V : Fin m → Pt m} (hl : LTiling S l V)
    {ns : Fin m → ℤ} (hns : ∀ q, 1 ≤ ns q) {points : Fin count → Pt m}
    (ht : ExactTiling S points (scaleVectors ns V))
    (hcell : ∀ i, ∃ u ∈ l, ∃ r : Fin m → ℤ, (∀ q, 0 ≤ r q ∧ r q < ns q) ∧ points i = u + comb V r)
    (hone : 1 ≤ nth) (hnth : IsNthDistance S nth d) (hres : Resolved prec S d)
    (hseen : ∀ x ∈ Distances S, x ≤ d → ∃ u ∈ l, ∃ u' ∈ l, ∃ a : Fin m → ℤ, (∀ q, |a q| ≤ 2 * ns q) ∧
      ndist (u + comb V a) u' = x)
    (hinner : (∀ x ∈ Distances S, x ≤ d → ∃ u ∈ l, ∃ u' ∈ l, ∃ a : Fin m → ℤ, (∀ q, |a q| < ns q) ∧
      ndist (u + comb V a) u' = x) ∨ (zs prec (pdist (List.ofFn points))).length < nth)
    (hbox : ∀ u ∈ l, ∀ u' ∈ l, ∀ a : Fin m → ℤ, ndist (u + comb V a) u' ≤ d → ∀ q, |a q| ≤ ns q ∨
      |a q| ≤ 2 * ns q ∧ ∃ c : Fin m → ℤ, OnShell c 2 ∧
        ∃ i j, ndist (points i + comb (scaleVectors ns V) c) (points j) ≤ roundTo prec d)
    (houter : ∃ q, ∃ u ∈ l, ∃ u' ∈ l, ndist (u + comb V (Pi.single q 1)) u' ≤ roundTo prec d) :
    ShellData prec S points (scaleVectors ns V) nth d := by
  have scaled : ∀ (u u' : Pt m) (r r' c : Fin m → ℤ),
      ndist (u + comb V r + comb (scaleVectors ns V) c) (u' + comb V r') =
        ndist (u + comb V (r + (fun i => ns i * c i) - r')) u' := by
    intro u u' r r' c
    rw [comb_scale, ndist_eq, ndist_eq, comb_sub, comb_add]
    congr 1; abel
  refine ⟨ht, hone, hnth, hres, ?_, ?_, ?_⟩
  · intro x hx hxd
    obtain ⟨u, hu, u', hu', a, ha, rfl⟩ := hseen x hx hxd
    have hmod : ∀ q, 0 ≤ a q % ns q ∧ a q % ns q < ns q := fun q => by
      have := hns q
      exact ⟨Int.emod_nonneg _ (by omega), Int.emod_lt_of_pos _ (by omega)⟩
    obtain ⟨i, hi⟩ := super_back hl ht hcell hu (r := fun q => a q % ns q) hmod
    obtain ⟨j, hj⟩ := super_back hl ht hcell hu' (r := 0) fun q => by
      have := hns q; simp only [Pi.zero_apply]; omega
    have e : ndist (points i + comb (scaleVectors ns V) fun q => a q / ns q) (points j) =
        ndist (u + comb V a) u' := by
      rw [hi, hj, scaled]
      congr 3
      funext q
      simp only [Pi.add_apply, Pi.sub_apply, Pi.zero_apply, sub_zero]
      exact Int.emod_add_mul_ediv _ _
    refine ⟨fun q => a q / ns q, fun q => ?_, i, j, ?_, e⟩
    · have h1 := hns q
      have h2 := abs_le.1 (ha q)
      rw [abs_le]
      constructor
      · exact (Int.le_ediv_iff_mul_le (by omega)).2 (by linarith)
      · have := Int.ediv_le_ediv (a := a q) (b := ns q * 2) (c := ns q) (by omega) (by linarith)
        rwa [Int.mul_ediv_cancel_left _ (by omega)] at this
    · by_contra hc
      push Not at hc
      rw [hc.1, hc.2, comb_zero, add_zero, ndist_self] at e
      exact (dist_pos hx).ne e
  · rcases hinner with hin | hfew
    · left
      intro x hx hxd
      obtain ⟨u, hu, u', hu', a, hw, rfl⟩ := hin x hx hxd
      obtain ⟨i, hi⟩ := super_back hl ht hcell hu (r := fun q => max (a q) 0) fun q => by
        have := abs_lt.1 (hw q); have := hns q; omega
      obtain ⟨j, hj⟩ := super_back hl ht hcell hu' (r := fun q => max (-a q) 0) fun q => by
        have := abs_lt.1 (hw q); have := hns q; omega
      have e : ndist (points i) (points j) = ndist (u + comb V a) u' := by
        have ea : a = (fun q => max (a q) 0) - fun q => max (-a q) 0 := by
          funext q; simp only [Pi.sub_apply]; omega
        rw [hi, hj, ndist_eq, ndist_eq]
        conv_rhs => rw [ea, comb_sub]
        congr 1; abel
      refine ⟨i, j, ?_, e⟩
      rintro rfl
      rw [ndist_self] at e
      exact (dist_pos hx).ne e
    · exact Or.inr hfew
  · intro i j c hd q t h1 h2
    obtain ⟨u, hu, r, hr, hi⟩ := hcell i
    obtain ⟨u', hu', r', hr', hj⟩ := hcell j
    rw [hi, hj, scaled] at hd
    have g1 := hr q
    have g2 := hr' q
    have g3 := hns q
    have bound : ∀ b : ℤ, 1 ≤ b → |(r + (fun i => ns i * c i) - r') q| ≤ b * ns q → |c q| ≤ b := by
      intro b hb hle
      have hb' := abs_le.1 hle
      simp only [Pi.add_apply, Pi.sub_apply] at hb'
      rw [abs_le]
      constructor
      · by_contra hcon
        have : ns q * c q ≤ ns q * (-b - 1) := mul_le_mul_of_nonneg_left (by omega) (by omega)
        nlinarith [hb'.1]
      · by_contra hcon
        have : ns q * (b + 1) ≤ ns q * c q := mul_le_mul_of_nonneg_left (by omega) (by omega)
        nlinarith [hb'.2]
    have shell1 : ∃ c', OnShell c' 1 ∧ ∃ i' j',
        ndist (points i' + comb (scaleVectors ns V) c') (points j') ≤ roundTo prec d := by
      obtain ⟨q', w, hw, w', hw', hle⟩ := houter
      obtain ⟨c', hc', i', j', e'⟩ := super_outer (q := q') hl hns ht hcell hw hw'
      exact ⟨c', hc', i', j', e'.le.trans hle⟩
    rcases hbox u hu u' hu' _ hd q with hb | ⟨hb, h2'⟩
    · have := bound 1 le_rfl (by linarith)
      have ht1 : t = 1 := by omega
      subst ht1
      exact shell1
    · have := bound 2 (by norm_num) hb
      have ht1 : t = 1 ∨ t = 2 := by omega
      rcases ht1 with rfl | rfl
      · exact shell1
      · exact h2'

/-- Distances whose squares are whole multiples of a unit are resolved. -/
theorem resolved_of_units {u : ℝ} (hu : 1 / 4 ≤ u) (h : ∀ x ∈ Distances S, ∃ z : ℤ, x ^ 2 = z * u)
    (hp : 1 ≤ prec) (hd : 12 * d + 1 ≤ 10 ^ prec) : Resolved prec S d := by
  intro x hx y hy hxy hxd
  have hx0 := dist_pos hx
  obtain ⟨a, ha⟩ := h x hx
  obtain ⟨b, hb⟩ := h y hy
  have hab : a < b := by
    have h1 : x ^ 2 < y ^ 2 := by nlinarith
    rw [ha, hb] at h1
    have : (a : ℝ) < b := lt_of_mul_lt_mul_right h1 (by linarith)
    exact_mod_cast this
  have hab' : (a : ℝ) + 1 ≤ b := by exact_mod_cast hab
  have hgap : 1 / 4 ≤ y ^ 2 - x ^ 2 := by
    rw [ha, hb]; nlinarith
  have ht := tol_le hp
  have htp := tol_pos prec
  have hdt : (12 * d + 1) * tol prec ≤ 1 := by
    have := mul_le_mul_of_nonneg_right hd htp.le
    have e : (10 : ℝ) ^ prec * tol prec = 1 := by unfold tol; field_simp
    rwa [e] at this
  by_contra hc
  push Not at hc
  -- (y - x)(y + x) ≥ 1/4 but y - x ≤ 3/2 tol
  have h1 : (y - x) * (y + x) ≤ 3 / 2 * tol prec * (2 * d + 3 / 2 * tol prec) := by
    apply mul_le_mul hc (by linarith) (by linarith) (by positivity)
  have h2 : (y - x) * (y + x) = y ^ 2 - x ^ 2 := by ring
  nlinarith

/-- What is needed about the unit cell for all shells. -/
structure CellForm (l : List (Pt m)) (V : Fin m → Pt m) (unit κ τ : ℝ) : Prop where
  unit_ge : 1 / 4 ≤ unit
  units : ∀ u ∈ l, ∀ u' ∈ l, ∀ c : Fin m → ℤ, ∃ z : ℤ, ndist (u + comb V c) u' ^ 2 = z * unit
  wide : ∀ u ∈ l, ∀ u' ∈ l, ∀ c : Fin m → ℤ, ∀ q, |(c q : ℝ)| ≤ κ * ndist (u + comb V c) u' + τ

/-- The nearest neighbours are below the rounded distance. -/
theorem nearest_outer {d1 : ℝ} {l : List (Pt m)} {V : Fin m → Pt m} (hl : LTiling S l V)
    (hc : CellData S l V d1) (htwo : 2 ≤ nth) (hnth : IsNthDistance S nth d) (hres : Resolved prec S d) :
    ∃ q, ∃ u ∈ l, ∃ u' ∈ l, ndist (u + comb V (Pi.single q 1)) u' ≤ roundTo prec d := by
  obtain ⟨q, u, hu, u', hu', e⟩ := hc.outer
  refine ⟨q, u, hu, u', hu', ?_⟩
  rw [e]
  obtain ⟨d', hd', hlt, -⟩ := prev_distance hnth htwo
  have hle : d1 ≤ d' := by
    obtain ⟨s, hs, t, ht, hst, e'⟩ := hd'.1
    rw [e']
    rcases hc.gap s hs t ht hst with h | h
    · exact h.ge
    · linarith
  have hmem : d1 ∈ Distances S := by
    refine ⟨_, hl.inside u hu (Pi.single q 1), u', ?_, fun he => ?_, e.symm⟩
    · have := hl.inside u' hu' 0
      rwa [comb_zero, add_zero] at this
    · rw [he, ndist_self] at e
      exact hc.pos.ne e
  have h1 := hres d1 hmem d hnth.1 (by linarith) (by linarith)
  have h2 := (abs_le.1 (roundTo_near prec d)).1
  have := tol_pos prec
  linarith

theorem shell_of_form {d1 : ℝ} {count : ℕ} {l : List (Pt m)} {V : Fin m → Pt m} (hl : LTiling S l V)
    (hc : CellData S l V d1) {unit κ τ : ℝ} (hκ : 0 ≤ κ) (hf : CellForm l V unit κ τ) (hp : 1 ≤ prec)
    {ns : Fin m → ℤ} {points : Fin count → Pt m} (ht : ExactTiling S points (scaleVectors ns V))
    (hcell : ∀ i, ∃ u ∈ l, ∃ r : Fin m → ℤ, (∀ q, 0 ≤ r q ∧ r q < ns q) ∧ points i = u + comb V r)
    (htwo : 2 ≤ nth) (hnth : IsNthDistance S nth d) (hd : 12 * d + 1 ≤ 10 ^ prec)
    (hw : ∀ q, κ * d + τ < ns q) (hns : ∀ q, 1 ≤ ns q) :
    ShellData prec S points (scaleVectors ns V) nth d := by
  have hres : Resolved prec S d := resolved_of_units hf.unit_ge (fun x hx => by
    obtain ⟨u, hu, u', hu', a, _, rfl⟩ := distance_cell hl hx
    exact hf.units u hu u' hu' a) hp hd
  have width : ∀ u ∈ l, ∀ u' ∈ l, ∀ a : Fin m → ℤ, ndist (u + comb V a) u' ≤ d → ∀ q, |a q| < ns q := by
    intro u hu u' hu' a ha q
    have h1 := hf.wide u hu u' hu' a q
    have h2 := hw q
    have h3 : κ * ndist (u + comb V a) u' ≤ κ * d := mul_le_mul_of_nonneg_left ha hκ
    have : |(a q : ℝ)| < ns q := by linarith
    exact_mod_cast this
  have inner : ∀ x ∈ Distances S, x ≤ d → ∃ u ∈ l, ∃ u' ∈ l, ∃ a : Fin m → ℤ, (∀ q, |a q| < ns q) ∧
      ndist (u + comb V a) u' = x := by
    intro x hx hxd
    obtain ⟨u, hu, u', hu', a, _, rfl⟩ := distance_cell hl hx
    exact ⟨u, hu, u', hu', a, width u hu u' hu' a hxd, rfl⟩
  refine shell_super hl hns ht hcell (by omega) hnth hres ?_ (Or.inl inner) ?_
    (nearest_outer hl hc htwo hnth hres)
  · intro x hx hxd
    obtain ⟨u, hu, u', hu', a, ha, e⟩ := inner x hx hxd
    exact ⟨u, hu, u', hu', a, fun q => by have := ha q; have := hns q; omega, e⟩
  · intro u hu u' hu' a ha q
    exact Or.inl (width u hu u' hu' a ha q).le

/-! ### The unit cells -/

theorem ndist_sq (p q : Pt m) : ndist p q ^ 2 = ∑ a, (p a - q a) ^ 2 :=
  Real.sq_sqrt (Finset.sum_nonneg fun _ _ => sq_nonneg _)

theorem abs_le_of_sq {a κ x : ℝ} (hκ : 0 ≤ κ) (hx : 0 ≤ x) (h : a ^ 2 ≤ κ ^ 2 * x ^ 2) : |a| ≤ κ * x := by
  rw [← mul_pow] at h
  exact abs_le_of_sq_le_sq h (mul_nonneg hκ hx)

theorem ndist_nn (p q : Pt m) : 0 ≤ ndist p q := Real.sqrt_nonneg _

theorem chain_form : CellForm chainCell.points chainCell.vectors 1 1 0 := by
  have key : ∀ u ∈ chainCell.points, ∀ u' ∈ chainCell.points, ∀ c : Fin 1 → ℤ,
      ndist (u + comb chainCell.vectors c) u' ^ 2 = ((c 0 ^ 2 : ℤ) : ℝ) * 1 := by
    intro u hu u' hu' c
    simp only [chainCell, List.mem_singleton] at hu hu'
    subst hu hu'
    rw [ndist_sq]
    simp [chainCell, comb]
  refine ⟨by norm_num, fun u hu u' hu' c => ⟨_, key u hu u' hu' c⟩, fun u hu u' hu' c q => ?_⟩
  have := key u hu u' hu' c
  rw [add_zero]
  refine abs_le_of_sq zero_le_one (ndist_nn _ _) ?_
  rw [this, Subsingleton.elim q 0]
  push_cast; linarith

theorem square_form : CellForm squareCell.points squareCell.vectors 1 1 0 := by
  have key : ∀ u ∈ squareCell.points, ∀ u' ∈ squareCell.points, ∀ c : Fin 2 → ℤ,
      ndist (u + comb squareCell.vectors c) u' ^ 2 = ((c 0 ^ 2 + c 1 ^ 2 : ℤ) : ℝ) * 1 := by
    intro u hu u' hu' c
    simp only [squareCell, List.mem_singleton] at hu hu'
    subst hu hu'
    rw [ndist_sq, Fin.sum_univ_two]
    simp [squareCell, comb, Fin.sum_univ_two]
  refine ⟨by norm_num, fun u hu u' hu' c => ⟨_, key u hu u' hu' c⟩, fun u hu u' hu' c q => ?_⟩
  have := key u hu u' hu' c
  rw [add_zero]
  refine abs_le_of_sq zero_le_one (ndist_nn _ _) ?_
  rw [this]
  have h0 := sq_nonneg (c 0 : ℝ)
  have h1 := sq_nonneg (c 1 : ℝ)
  fin_cases q <;> push_cast
  · change (c 0 : ℝ) ^ 2 ≤ _; linarith
  · change (c 1 : ℝ) ^ 2 ≤ _; linarith

theorem cubic_form : CellForm cubicCell.points cubicCell.vectors 1 1 0 := by
  have key : ∀ u ∈ cubicCell.points, ∀ u' ∈ cubicCell.points, ∀ c : Fin 3 → ℤ,
      ndist (u + comb cubicCell.vectors c) u' ^ 2 = ((c 0 ^ 2 + c 1 ^ 2 + c 2 ^ 2 : ℤ) : ℝ) * 1 := by
    intro u hu u' hu' c
    simp only [cubicCell, List.mem_singleton] at hu hu'
    subst hu hu'
    rw [ndist_sq, Fin.sum_univ_three]
    simp [cubicCell, comb, Fin.sum_univ_three]
  refine ⟨by norm_num, fun u hu u' hu' c => ⟨_, key u hu u' hu' c⟩, fun u hu u' hu' c q => ?_⟩
  have := key u hu u' hu' c
  rw [add_zero]
  refine abs_le_of_sq zero_le_one (ndist_nn _ _) ?_
  rw [this]
  have h0 := sq_nonneg (c 0 : ℝ)
  have h1 := sq_nonneg (c 1 : ℝ)
  have h2 := sq_nonneg (c 2 : ℝ)
  fin_cases q <;> push_cast
  · change (c 0 : ℝ) ^ 2 ≤ _; linarith
  · change (c 1 : ℝ) ^ 2 ≤ _; linarith
  · change (c 2 : ℝ) ^ 2 ≤ _; linarith

theorem two_inv_sqrt3_sq : (2 / Real.sqrt 3) ^ 2 = 4 / 3 := by
  rw [div_pow, Real.sq_sqrt (by norm_num)]; norm_num

theorem two_inv_sqrt3_nn : 0 ≤ 2 / Real.sqrt 3 := by positivity

theorem triangle_form : CellForm triangleCell.points triangleCell.vectors 1 (2 / Real.sqrt 3) 0 := by
  have h3 := r3_sq
  have key : ∀ u ∈ triangleCell.points, ∀ u' ∈ triangleCell.points, ∀ c : Fin 2 → ℤ,
      ndist (u + comb triangleCell.vectors c) u' ^ 2 =
        ((c 0 ^ 2 + c 0 * c 1 + c 1 ^ 2 : ℤ) : ℝ) * 1 := by
    intro u hu u' hu' c
    simp only [triangleCell, List.mem_singleton] at hu hu'
    subst hu hu'
    have e : c = ![c 0, c 1] := by funext i; fin_cases i <;> rfl
    rw [ndist_sq, Fin.sum_univ_two, Pi.add_apply, Pi.add_apply, e, triBasis_0, triBasis_1]
    simp only [Matrix.cons_val_zero, Matrix.cons_val_one, Matrix.cons_val_fin_one]
    push_cast
    linear_combination ((c 1 : ℝ) ^ 2 / 4) * h3
  refine ⟨by norm_num, fun u hu u' hu' c => ⟨_, key u hu u' hu' c⟩, fun u hu u' hu' c q => ?_⟩
  have := key u hu u' hu' c
  rw [add_zero]
  refine abs_le_of_sq two_inv_sqrt3_nn (ndist_nn _ _) ?_
  rw [this, two_inv_sqrt3_sq]
  have h0 := sq_nonneg ((c 0 : ℝ) + 2 * c 1)
  have h1 := sq_nonneg (2 * (c 0 : ℝ) + c 1)
  fin_cases q <;> push_cast
  · change (c 0 : ℝ) ^ 2 ≤ _; nlinarith
  · change (c 1 : ℝ) ^ 2 ≤ _; nlinarith

theorem abs_le_add {a b τ x : ℝ} (h : |a + b| ≤ x) (hb : |b| ≤ τ) : |a| ≤ x + τ := by
  have := abs_sub (a + b) b
  rw [add_sub_cancel_right] at this
  linarith

theorem honeycomb_form :
    CellForm honeycombCell.points honeycombCell.vectors (1 / 3) (2 / Real.sqrt 3) (2 / 3) := by
  have key : ∀ u ∈ honeycombCell.points, ∀ u' ∈ honeycombCell.points, ∃ η : ℤ, (η = -1 ∨ η = 0 ∨ η = 1) ∧
      ∀ c : Fin 2 → ℤ, ndist (u + comb honeycombCell.vectors c) u' ^ 2 =
        ((3 * (c 0 ^ 2 + c 0 * c 1 + c 1 ^ 2) + 3 * (c 1 * η) + η ^ 2 : ℤ) : ℝ) * (1 / 3) := by
    intro u hu u' hu'
    obtain ⟨e, he, rfl⟩ := mem_honeycombCell hu
    obtain ⟨e', he', rfl⟩ := mem_honeycombCell hu'
    have : ∃ η : ℤ, e - e' = 2 * η ∧ (η = -1 ∨ η = 0 ∨ η = 1) := by
      rcases he with rfl | rfl <;> rcases he' with rfl | rfl
      · exact ⟨0, by norm_num⟩
      · exact ⟨-1, by norm_num⟩
      · exact ⟨1, by norm_num⟩
      · exact ⟨0, by norm_num⟩
    obtain ⟨η, h1, h2⟩ := this
    refine ⟨η, h2, fun c => ?_⟩
    have e : c = ![c 0, c 1] := by funext i; fin_cases i <;> rfl
    rw [ndist_sq]
    conv_lhs => rw [e]
    exact honey_key _ _ _ _ η h1
  refine ⟨by norm_num, fun u hu u' hu' c => ?_, fun u hu u' hu' c q => ?_⟩
  · obtain ⟨η, _, h⟩ := key u hu u' hu'
    exact ⟨_, h c⟩
  · obtain ⟨η, hη, h⟩ := key u hu u' hu'
    have hs := h c
    push_cast at hs
    have habs : |(η : ℝ)| ≤ 1 := by rcases hη with rfl | rfl | rfl <;> norm_num
    have habs' := abs_le.1 habs
    fin_cases q
    · change |(c 0 : ℝ)| ≤ _
      refine abs_le_add (b := -(η : ℝ) / 3) (abs_le_of_sq two_inv_sqrt3_nn (ndist_nn _ _) ?_)
        (by rw [abs_le]; constructor <;> linarith)
      rw [hs, two_inv_sqrt3_sq]
      nlinarith [sq_nonneg ((c 1 : ℝ) + (c 0 + η) / 2)]
    · change |(c 1 : ℝ)| ≤ _
      refine abs_le_add (b := 2 * (η : ℝ) / 3) (abs_le_of_sq two_inv_sqrt3_nn (ndist_nn _ _) ?_)
        (by rw [abs_le]; constructor <;> linarith)
      rw [hs, two_inv_sqrt3_sq]
      nlinarith [sq_nonneg ((c 0 : ℝ) + c 1 / 2)]

theorem kagome_form :
    CellForm kagomeCell.points kagomeCell.vectors (1 / 4) (2 / Real.sqrt 3) (1 / 2) := by
  have key : ∀ u ∈ kagomeCell.points, ∀ u' ∈ kagomeCell.points, ∃ e f : ℤ, |e| ≤ 1 ∧ |f| ≤ 1 ∧
      ∀ c : Fin 2 → ℤ, ndist (u + comb kagomeCell.vectors c) u' ^ 2 =
        (((2 * c 0 + e) ^ 2 + (2 * c 0 + e) * (2 * c 1 + f) + (2 * c 1 + f) ^ 2 : ℤ) : ℝ) * (1 / 4) := by
    intro u hu u' hu'
    obtain ⟨e, f, he, hf, rfl⟩ := mem_kagomeCell hu
    obtain ⟨e', f', he', hf', rfl⟩ := mem_kagomeCell hu'
    refine ⟨e - e', f - f', ?_, ?_, fun c => ?_⟩
    · rw [abs_le]; omega
    · rw [abs_le]; omega
    · have h : c = ![c 0, c 1] := by funext i; fin_cases i <;> rfl
      rw [ndist_sq]
      conv_lhs => rw [h]
      rw [kagome_key]
      congr 3 <;> ring
  refine ⟨by norm_num, fun u hu u' hu' c => ?_, fun u hu u' hu' c q => ?_⟩
  · obtain ⟨e, f, _, _, h⟩ := key u hu u' hu'
    exact ⟨_, h c⟩
  · obtain ⟨e, f, he, hf, h⟩ := key u hu u' hu'
    have hs := h c
    push_cast at hs
    have he' : |(e : ℝ)| ≤ 1 := by exact_mod_cast he
    have hf' : |(f : ℝ)| ≤ 1 := by exact_mod_cast hf
    rw [abs_le] at he' hf'
    fin_cases q
    · change |(c 0 : ℝ)| ≤ _
      refine abs_le_add (b := (e : ℝ) / 2) (abs_le_of_sq two_inv_sqrt3_nn (ndist_nn _ _) ?_)
        (by rw [abs_le]; constructor <;> linarith [he'.1, he'.2])
      rw [hs, two_inv_sqrt3_sq]
      nlinarith [sq_nonneg ((2 * (c 0 : ℝ) + e) + 2 * (2 * c 1 + f))]
    · change |(c 1 : ℝ)| ≤ _
      refine abs_le_add (b := (f : ℝ) / 2) (abs_le_of_sq two_inv_sqrt3_nn (ndist_nn _ _) ?_)
        (by rw [abs_le]; constructor <;> linarith [hf'.1, hf'.2])
      rw [hs, two_inv_sqrt3_sq]
      nlinarith [sq_nonneg (2 * (2 * (c 0 : ℝ) + e) + (2 * c 1 + f))]

end Verif.LDB
