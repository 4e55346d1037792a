import Verif.Proofs.ShellBuilt
/-!
Helper lemmas: the second neighbours of the supercells of all sizes (for C96).
-/

namespace Verif.LDB

open Verif.Latt

variable {m : ℕ} {prec : ℕ} {n0 n1 n2 : ℤ} {S : Set (Pt m)}

theorem isNth_two {d1 d2 : ℝ} (h1 : d1 ∈ Distances S) (h2 : d2 ∈ Distances S) (hlt : d1 < d2)
    (hall : ∀ x ∈ Distances S, x = d1 ∨ x = d2 ∨ d2 < x) : IsNthDistance S 2 d2 := by
  refine ⟨h2, ?_⟩
  have : {x ∈ Distances S | x ≤ d2} = {d1, d2} := by
    ext x
    simp only [Set.mem_ofPred_eq, Set.mem_insert_iff, Set.mem_singleton_iff]
    constructor
    · rintro ⟨hx, hle⟩
      rcases hall x hx with h | h | h
      · exact Or.inl h
      · exact Or.inr h
      · exact absurd hle (not_le.2 h)
    · rintro (rfl | rfl)
      · exact ⟨h1, hlt.le⟩
      · exact ⟨h2, le_rfl⟩
  rw [this, Set.ncard_pair hlt.ne]

theorem isNth_one {d1 : ℝ} (h1 : IsNearestDistance S d1) : IsNthDistance S 1 d1 := by
  refine ⟨h1.1, ?_⟩
  have : {x ∈ Distances S | x ≤ d1} = {d1} := by
    ext x
    simp only [Set.mem_ofPred_eq, Set.mem_singleton_iff]
    constructor
    · rintro ⟨hx, hle⟩
      exact le_antisymm hle (h1.2 hx)
    · rintro rfl
      exact ⟨h1.1, le_rfl⟩
  rw [this, Set.ncard_singleton]

/-- What is needed about the unit cell for the second neighbours. -/
structure SecondData (S : Set (Pt m)) (l : List (Pt m)) (V : Fin m → Pt m) (d1 d2 : ℝ) : Prop where
  lt : d1 < d2
  le_two : d2 ≤ 2
  first : d1 ∈ Distances S
  second : d2 ∈ Distances S
  classify : ∀ x ∈ Distances S, x = d1 ∨ x = d2 ∨ d2 < x
  reach : ∀ u ∈ l, ∀ u' ∈ l, ∀ a : Fin m → ℤ, ndist (u + comb V a) u' ≤ d2 → ∀ q, |a q| ≤ 2

theorem SecondData.isNth {l : List (Pt m)} {V : Fin m → Pt m} {d1 d2 : ℝ}
    (h : SecondData S l V d1 d2) : IsNthDistance S 2 d2 := isNth_two h.first h.second h.lt h.classify

theorem zs_const {ds : List ℝ} {x : ℝ} (h : ∀ y ∈ ds, y = x) : (zs prec ds).length ≤ 1 := by
  unfold zs
  rw [Finset.length_sort]
  refine (Finset.card_le_card (t := {rint (x * 10 ^ prec)}) ?_).trans (Finset.card_singleton _).le
  intro z hz
  rw [List.mem_toFinset, List.mem_map] at hz
  obtain ⟨y, hy, rfl⟩ := hz
  rw [h y hy, Finset.mem_singleton]

theorem few_of_const {count : ℕ} {points : Fin count → Pt m} {d1 : ℝ}
    (h : ∀ i j, i ≠ j → ndist (points i) (points j) = d1) :
    (zs prec (pdist (List.ofFn points))).length < 2 := by
  refine Nat.lt_succ_of_le (zs_const (x := d1) fun y hy => ?_)
  obtain ⟨a, b, p, q, hab, ha, hb, rfl⟩ := mem_pdist.1 hy
  rw [List.getElem?_ofFn] at ha hb
  split at ha
  · split at hb
    · rw [← Option.some.inj ha, ← Option.some.inj hb]
      exact h _ _ (by intro e; have := congrArg Fin.val e; simp at this; omega)
    · simp at hb
  · simp at ha

theorem second_super {d1 d2 : ℝ} {count : ℕ} {l : List (Pt m)} {V : Fin m → Pt m} (hl : LTiling S l V)
    (hc : CellData S l V d1) {unit κ τ : ℝ} (hf : CellForm l V unit κ τ) (hp : 2 ≤ prec)
    (hs : SecondData S l V d1 d2)
    {ns : Fin m → ℤ} {points : Fin count → Pt m} (ht : ExactTiling S points (scaleVectors ns V))
    (hcell : ∀ i, ∃ u ∈ l, ∃ r : Fin m → ℤ, (∀ q, 0 ≤ r q ∧ r q < ns q) ∧ points i = u + comb V r)
    (hns : ∀ q, 1 ≤ ns q)
    (hinner : ((∃ u ∈ l, ∃ u' ∈ l, ∃ a : Fin m → ℤ, (∀ q, |a q| < ns q) ∧ ndist (u + comb V a) u' = d1) ∧
      ∃ u ∈ l, ∃ u' ∈ l, ∃ a : Fin m → ℤ, (∀ q, |a q| < ns q) ∧ ndist (u + comb V a) u' = d2) ∨
      ∀ u ∈ l, ∀ u' ∈ l, ∀ a : Fin m → ℤ, (∀ q, |a q| < ns q) → (u ≠ u' ∨ a ≠ 0) →
        ndist (u + comb V a) u' = d1)
    (hbox : (∀ u ∈ l, ∀ u' ∈ l, ∀ a : Fin m → ℤ, ndist (u + comb V a) u' ≤ d2 → ∀ q, |a q| ≤ ns q) ∨
      ∃ c : Fin m → ℤ, OnShell c 2 ∧
        ∃ i j, ndist (points i + comb (scaleVectors ns V) c) (points j) ≤ roundTo prec d2) :
    ShellData prec S points (scaleVectors ns V) 2 d2 := by
  have hpow : (25 : ℝ) ≤ 10 ^ prec := by
    calc (25 : ℝ) ≤ 10 ^ 2 := by norm_num
      _ ≤ 10 ^ prec := pow_le_pow_right₀ (by norm_num) hp
  have hres : Resolved prec S d2 := resolved_of_units hf.unit_ge (fun x hx => by
    obtain ⟨u, hu, u', hu', a, _, rfl⟩ := distance_cell hl hx
    exact hf.units u hu u' hu' a) (by omega) (by linarith [hs.le_two])
  refine shell_super hl hns ht hcell (by norm_num) hs.isNth hres ?_ ?_ ?_
    (nearest_outer hl hc le_rfl hs.isNth hres)
  · intro x hx hxd
    obtain ⟨u, hu, u', hu', a, _, rfl⟩ := distance_cell hl hx
    exact ⟨u, hu, u', hu', a, fun q => by
      have := hs.reach u hu u' hu' a hxd q; have := hns q; omega, rfl⟩
  · rcases hinner with ⟨hA, hB⟩ | hfew
    · left
      intro x hx hxd
      rcases hs.classify x hx with rfl | rfl | h
      · exact hA
      · exact hB
      · exact absurd hxd (not_le.2 h)
    · right
      refine few_of_const (d1 := d1) fun i j hij => ?_
      obtain ⟨u, hu, r, hr, hi⟩ := hcell i
      obtain ⟨u', hu', r', hr', hj⟩ := hcell j
      have e : ndist (points i) (points j) = ndist (u + comb V (r - r')) u' := by
        rw [hi, hj, ndist_eq, ndist_eq, comb_sub]; congr 1; abel
      rw [e]
      refine hfew u hu u' hu' _ (fun q => ?_) ?_
      · have h1 := hr q
        have h2 := hr' q
        rw [Pi.sub_apply, abs_lt]; omega
      · by_contra hcon
        push Not at hcon
        apply hij
        have e : points i + comb (scaleVectors ns V) 0 = points j + comb (scaleVectors ns V) 0 := by
          rw [hi, hj, hcon.1, sub_eq_zero.1 hcon.2]
        exact (tiling_inj ht e).1
  · intro u hu u' hu' a ha q
    rcases hbox with h | h
    · exact Or.inl (h u hu u' hu' a ha q)
    · exact Or.inr ⟨by have := hs.reach u hu u' hu' a ha q; have := hns q; omega, h⟩

/-! ### The unit cells -/

theorem mem_distances {l : List (Pt m)} {V : Fin m → Pt m} (hl : LTiling S l V) {u u' : Pt m}
    (hu : u ∈ l) (hu' : u' ∈ l) {a : Fin m → ℤ} {x : ℝ} (hx : 0 < x) (h : ndist (u + comb V a) u' = x) :
    x ∈ Distances S := by
  refine ⟨_, hl.inside u hu a, u', ?_, fun e => ?_, h.symm⟩
  · have := hl.inside u' hu' 0
    rwa [comb_zero, add_zero] at this
  · rw [e, ndist_self] at h
    exact hx.ne h

theorem eq_sqrt_of_sq {x y : ℝ} (hx : 0 ≤ x) (h : x ^ 2 = y) : x = Real.sqrt y := by
  rw [← h, Real.sqrt_sq hx]


theorem eq_of_sq {x y : ℝ} (hx : 0 ≤ x) (hy : 0 ≤ y) (h : x ^ 2 = y ^ 2) : x = y := by
  rw [← Real.sqrt_sq hx, h, Real.sqrt_sq hy]

/-- The second neighbours from an integer form. -/
theorem secondData_of {l : List (Pt m)} {V : Fin m → Pt m} (hl : LTiling S l V) {unit κ τ : ℝ}
    (hf : CellForm l V unit κ τ) (hκ : 0 ≤ κ) {P : ℤ → Prop}
    (key : ∀ u ∈ l, ∀ u' ∈ l, ∀ a : Fin m → ℤ, ∃ z, P z ∧ ndist (u + comb V a) u' ^ 2 = (z : ℝ) * unit)
    {z1 z2 : ℤ} {d1 d2 : ℝ} (hz1 : 0 < z1) (hz : z1 < z2)
    (hP : ∀ z, P z → 0 < z → z = z1 ∨ z = z2 ∨ z2 < z) (hd1 : 0 ≤ d1) (hd2 : 0 ≤ d2)
    (e1 : d1 ^ 2 = z1 * unit) (e2 : d2 ^ 2 = z2 * unit) (hle : d2 ≤ 2)
    (w1 : ∃ u ∈ l, ∃ u' ∈ l, ∃ a : Fin m → ℤ, ndist (u + comb V a) u' = d1)
    (w2 : ∃ u ∈ l, ∃ u' ∈ l, ∃ a : Fin m → ℤ, ndist (u + comb V a) u' = d2)
    (hr : κ * d2 + τ < 3) : SecondData S l V d1 d2 := by
  have hu : 0 < unit := by linarith [hf.unit_ge]
  have hz' : (z1 : ℝ) < z2 := by exact_mod_cast hz
  have hz1' : (0 : ℝ) < z1 := by exact_mod_cast hz1
  have hlt : d1 < d2 := lt_of_pow_lt_pow_left₀ 2 hd2 (by rw [e1, e2]; nlinarith)
  have h1 : 0 < d1 := by
    rcases hd1.lt_or_eq with h | h
    · exact h
    · rw [← h] at e1
      have := mul_pos hz1' hu
      norm_num at e1
      rcases e1 with e | e
      · omega
      · exact absurd e hu.ne'
  refine ⟨hlt, hle, ?_, ?_, ?_, ?_⟩
  · obtain ⟨u, hu, u', hu', a, e⟩ := w1
    exact mem_distances hl hu hu' h1 e
  · obtain ⟨u, hu, u', hu', a, e⟩ := w2
    exact mem_distances hl hu hu' (h1.trans hlt) e
  · intro x hx
    have hx0 := dist_pos hx
    obtain ⟨u, hu1, u', hu', a, _, rfl⟩ := distance_cell hl hx
    obtain ⟨z, hz, e⟩ := key u hu1 u' hu' a
    have hzp : 0 < z := by
      have : 0 < (z : ℝ) * unit := by rw [← e]; positivity
      have := (mul_pos_iff_of_pos_right hu).1 this
      exact_mod_cast this
    rcases hP z hz hzp with rfl | rfl | h
    · exact Or.inl (eq_of_sq hx0.le hd1 (e.trans e1.symm))
    · exact Or.inr (Or.inl (eq_of_sq hx0.le hd2 (e.trans e2.symm)))
    · refine Or.inr (Or.inr (lt_of_pow_lt_pow_left₀ 2 hx0.le ?_))
      rw [e, e2]
      have : (z2 : ℝ) < z := by exact_mod_cast h
      nlinarith
  · intro u hu1 u' hu' a ha q
    have h := hf.wide u hu1 u' hu' a q
    have h' := mul_le_mul_of_nonneg_left ha hκ
    have : |(a q : ℝ)| < 3 := by linarith
    have : |a q| < 3 := by exact_mod_cast this
    omega

theorem ndist_of_sq {p q : Pt m} {d : ℝ} (hd : 0 ≤ d) (h : ndist p q ^ 2 = d ^ 2) : ndist p q = d :=
  eq_of_sq (ndist_nn p q) hd h

theorem two_sq : Real.sqrt 2 ^ 2 = 2 := Real.sq_sqrt (by norm_num)
theorem three_sq : Real.sqrt 3 ^ 2 = 3 := Real.sq_sqrt (by norm_num)

theorem sqrt2_lt : Real.sqrt 2 < 3 / 2 := by
  rw [Real.sqrt_lt' (by norm_num)]; norm_num

theorem sqrt3_lt : Real.sqrt 3 < 2 := by
  rw [Real.sqrt_lt' (by norm_num)]; norm_num

theorem one_lt_sqrt2 : 1 < Real.sqrt 2 := by
  rw [Real.lt_sqrt (by norm_num)]; norm_num

theorem one_lt_sqrt3 : 1 < Real.sqrt 3 := by
  rw [Real.lt_sqrt (by norm_num)]; norm_num

/-! Chain -/

theorem chain_sq (a : Fin 1 → ℤ) :
    ndist (![0] + comb chainCell.vectors a) ![0] ^ 2 = ((a 0 ^ 2 : ℤ) : ℝ) * 1 := by
  rw [ndist_sq]; simp [chainCell, comb]

theorem chain_second : SecondData chainSites chainCell.points chainCell.vectors 1 2 := by
  refine secondData_of tiling_chain chain_form zero_le_one (P := fun z => ∃ a : ℤ, z = a ^ 2)
    (z1 := 1) (z2 := 4) ?_ (by norm_num) (by norm_num) ?_ (by norm_num) (by norm_num) (by norm_num)
    (by norm_num) le_rfl ?_ ?_ (by norm_num)
  · intro u hu u' hu' a
    simp only [chainCell, List.mem_singleton] at hu hu'
    subst hu hu'
    exact ⟨_, ⟨a 0, rfl⟩, chain_sq a⟩
  · rintro z ⟨a, rfl⟩ hz
    have h0 : |a| ≠ 0 := by rintro h; rw [abs_eq_zero] at h; subst h; simp at hz
    have h1 := abs_nonneg a
    rw [← sq_abs]
    have : |a| = 1 ∨ |a| = 2 ∨ 3 ≤ |a| := by omega
    rcases this with h | h | h
    · left; rw [h]; norm_num
    · right; left; rw [h]; norm_num
    · right; right; nlinarith
  · exact ⟨![0], by simp [chainCell], ![0], by simp [chainCell], ![1], ndist_of_sq (by norm_num) (by
      rw [chain_sq]; simp)⟩
  · exact ⟨![0], by simp [chainCell], ![0], by simp [chainCell], ![2], ndist_of_sq (by norm_num) (by
      rw [chain_sq]; norm_num)⟩

/-! Square -/

theorem square_sq (a : Fin 2 → ℤ) :
    ndist (![0, 0] + comb squareCell.vectors a) ![0, 0] ^ 2 = ((a 0 ^ 2 + a 1 ^ 2 : ℤ) : ℝ) * 1 := by
  rw [ndist_sq, Fin.sum_univ_two]; simp [squareCell, comb, Fin.sum_univ_two]

theorem square_second : SecondData squareSites squareCell.points squareCell.vectors 1 (Real.sqrt 2) := by
  refine secondData_of tiling_square square_form zero_le_one (P := fun _ => True)
    (z1 := 1) (z2 := 2) ?_ (by norm_num) (by norm_num) (by intro z _ _; omega) (by norm_num)
    (Real.sqrt_nonneg _) (by norm_num) (by norm_num) (by linarith [sqrt2_lt]) ?_ ?_
    (by linarith [sqrt2_lt])
  · intro u hu u' hu' a
    simp only [squareCell, List.mem_singleton] at hu hu'
    subst hu hu'
    exact ⟨_, trivial, square_sq a⟩
  · exact ⟨![0, 0], by simp [squareCell], ![0, 0], by simp [squareCell], ![1, 0], ndist_of_sq (by norm_num) (by
      rw [square_sq]; simp)⟩
  · exact ⟨![0, 0], by simp [squareCell], ![0, 0], by simp [squareCell], ![1, 1],
      ndist_of_sq (Real.sqrt_nonneg _) (by rw [square_sq]; norm_num)⟩

/-! Cubic -/

theorem cubic_sq (a : Fin 3 → ℤ) : ndist (![0, 0, 0] + comb cubicCell.vectors a) ![0, 0, 0] ^ 2 =
    ((a 0 ^ 2 + a 1 ^ 2 + a 2 ^ 2 : ℤ) : ℝ) * 1 := by
  rw [ndist_sq, Fin.sum_univ_three]; simp [cubicCell, comb, Fin.sum_univ_three]

theorem cubic_second : SecondData cubicSites cubicCell.points cubicCell.vectors 1 (Real.sqrt 2) := by
  refine secondData_of tiling_cubic cubic_form zero_le_one (P := fun _ => True)
    (z1 := 1) (z2 := 2) ?_ (by norm_num) (by norm_num) (by intro z _ _; omega) (by norm_num)
    (Real.sqrt_nonneg _) (by norm_num) (by norm_num) (by linarith [sqrt2_lt]) ?_ ?_
    (by linarith [sqrt2_lt])
  · intro u hu u' hu' a
    simp only [cubicCell, List.mem_singleton] at hu hu'
    subst hu hu'
    exact ⟨_, trivial, cubic_sq a⟩
  · exact ⟨![0, 0, 0], by simp [cubicCell], ![0, 0, 0], by simp [cubicCell], ![1, 0, 0], ndist_of_sq (by norm_num) (by
      rw [cubic_sq]; simp)⟩
  · exact ⟨![0, 0, 0], by simp [cubicCell], ![0, 0, 0], by simp [cubicCell], ![1, 1, 0],
      ndist_of_sq (Real.sqrt_nonneg _) (by
        rw [cubic_sq, two_sq]
        change (((1 : ℤ) ^ 2 + 1 ^ 2 + 0 ^ 2 : ℤ) : ℝ) * 1 = 2
        norm_num)⟩

/-! Triangle -/

theorem triangle_sq (a : Fin 2 → ℤ) : ndist (![0, 0] + comb triangleCell.vectors a) ![0, 0] ^ 2 =
    ((a 0 ^ 2 + a 0 * a 1 + a 1 ^ 2 : ℤ) : ℝ) * 1 := by
  have h3 := r3_sq
  have e : a = ![a 0, a 1] := by funext i; fin_cases i <;> rfl
  rw [ndist_sq, Fin.sum_univ_two, Pi.add_apply, Pi.add_apply, e, triBasis_0, triBasis_1]
  simp only [Matrix.cons_val_zero, Matrix.cons_val_one, Matrix.cons_val_fin_one]
  push_cast
  linear_combination ((a 1 : ℝ) ^ 2 / 4) * h3

/-- `2` is no value of the form. -/
theorem hex_ne_two (a b : ℤ) : a ^ 2 + a * b + b ^ 2 ≠ 2 := by
  intro h
  have h1 : (a ^ 2 + a * b + b ^ 2) % 3 = 2 := by rw [h]; rfl
  have ha : a % 3 = 0 ∨ a % 3 = 1 ∨ a % 3 = 2 := by omega
  have hb : b % 3 = 0 ∨ b % 3 = 1 ∨ b % 3 = 2 := by omega
  rcases ha with ha | ha | ha <;> rcases hb with hb | hb | hb <;>
    · simp [pow_two, Int.add_emod, Int.mul_emod, ha, hb] at h1

theorem triangle_second :
    SecondData triangleSites triangleCell.points triangleCell.vectors 1 (Real.sqrt 3) := by
  refine secondData_of tiling_triangle triangle_form two_inv_sqrt3_nn (P := fun z => z ≠ 2)
    (z1 := 1) (z2 := 3) ?_ (by norm_num) (by norm_num) (by intro z hz _; omega) (by norm_num)
    (Real.sqrt_nonneg _) (by norm_num) (by norm_num) sqrt3_lt.le ?_ ?_ ?_
  · intro u hu u' hu' a
    simp only [triangleCell, List.mem_singleton] at hu hu'
    subst hu hu'
    exact ⟨_, hex_ne_two _ _, triangle_sq a⟩
  · exact ⟨![0, 0], by simp [triangleCell], ![0, 0], by simp [triangleCell], ![1, 0], ndist_of_sq (by norm_num) (by
      rw [triangle_sq]; simp)⟩
  · exact ⟨![0, 0], by simp [triangleCell], ![0, 0], by simp [triangleCell], ![1, 1],
      ndist_of_sq (Real.sqrt_nonneg _) (by rw [triangle_sq]; norm_num)⟩
  · rw [div_mul_cancel₀ _ (by positivity)]; norm_num

/-! Honeycomb -/

theorem honeycomb_sq {u u' : Pt 2} (hu : u ∈ honeycombCell.points) (hu' : u' ∈ honeycombCell.points) :
    ∃ η : ℤ, (η = -1 ∨ η = 0 ∨ η = 1) ∧ (η = 0 ↔ u = u') ∧
      ∀ c : Fin 2 → ℤ, ndist (u + comb honeycombCell.vectors c) u' ^ 2 =
        ((3 * (c 0 ^ 2 + c 0 * c 1 + c 1 ^ 2) + 3 * (c 1 * η) + η ^ 2 : ℤ) : ℝ) * (1 / 3) := by
  obtain ⟨e, he, rfl⟩ := mem_honeycombCell hu
  obtain ⟨e', he', rfl⟩ := mem_honeycombCell hu'
  have : ∃ η : ℤ, e - e' = 2 * η ∧ (η = -1 ∨ η = 0 ∨ η = 1) := by
    rcases he with rfl | rfl <;> rcases he' with rfl | rfl
    · exact ⟨0, by norm_num⟩
    · exact ⟨-1, by norm_num⟩
    · exact ⟨1, by norm_num⟩
    · exact ⟨0, by norm_num⟩
  obtain ⟨η, h1, h2⟩ := this
  refine ⟨η, h2, ⟨?_, ?_⟩, fun c => ?_⟩
  · rintro rfl
    rw [show e = e' by omega]
  · intro h
    have := congrFun h 1
    simp only [Matrix.cons_val_one, Matrix.cons_val_fin_one] at this
    have h3 : (0 : ℝ) < r3 := r3_pos
    have : (e : ℝ) = e' := mul_right_cancel₀ (by positivity) this
    have : e = e' := by exact_mod_cast this
    omega
  · have e : c = ![c 0, c 1] := by funext i; fin_cases i <;> rfl
    rw [ndist_sq]
    conv_lhs => rw [e]
    exact honey_key _ _ _ _ η h1

theorem honeycomb_first_mem : ∃ u ∈ honeycombCell.points, ∃ u' ∈ honeycombCell.points,
    ndist (u + comb honeycombCell.vectors 0) u' = 1 / Real.sqrt 3 := by
  obtain ⟨-, -, -, -, hin⟩ := honeycomb_cell
  rcases hin with ⟨u, h, -⟩ | ⟨u, hu, u', hu', -, e⟩
  · simp [honeycombCell] at h
  · exact ⟨u, hu, u', hu', by rw [comb_zero, add_zero]; exact e⟩

theorem honeycomb_unit (q : Fin 2) : ∃ u ∈ honeycombCell.points,
    ndist (u + comb honeycombCell.vectors (Pi.single q 1)) u = 1 := by
  have hm : (![0, -(1 / 2) / r3] : Pt 2) ∈ honeycombCell.points := by simp [honeycombCell]
  obtain ⟨η, h1, h2, h3⟩ := honeycomb_sq hm hm
  have h0 : η = 0 := h2.2 rfl
  subst h0
  refine ⟨_, hm, ndist_of_sq (by norm_num) ?_⟩
  rw [h3]
  fin_cases q <;> simp

theorem honeycomb_second :
    SecondData honeycombSites honeycombCell.points honeycombCell.vectors (1 / Real.sqrt 3) 1 := by
  refine secondData_of tiling_honeycomb honeycomb_form two_inv_sqrt3_nn (P := fun z => z ≠ 2)
    (z1 := 1) (z2 := 3) ?_ (by norm_num) (by norm_num) (by intro z hz _; omega) inv_sqrt3_pos.le
    (by norm_num) (by rw [inv_sqrt3_sq]; norm_num) (by norm_num) (by norm_num) ?_ ?_ ?_
  · intro u hu u' hu' a
    obtain ⟨η, hη, -, h⟩ := honeycomb_sq hu hu'
    refine ⟨_, ?_, h a⟩
    generalize a 0 ^ 2 + a 0 * a 1 + a 1 ^ 2 = x
    generalize a 1 = y
    rcases hη with rfl | rfl | rfl <;> omega
  · obtain ⟨u, hu, u', hu', e⟩ := honeycomb_first_mem
    exact ⟨u, hu, u', hu', 0, e⟩
  · obtain ⟨u, hu, e⟩ := honeycomb_unit 0
    exact ⟨u, hu, u, hu, _, e⟩
  · have h1 := two_inv_sqrt3_sq
    have h2 := two_inv_sqrt3_nn
    nlinarith

/-! Kagome -/

theorem kagome_sq {u u' : Pt 2} (hu : u ∈ kagomeCell.points) (hu' : u' ∈ kagomeCell.points) :
    ∃ e f : ℤ, (u = u' ∧ e = 0 ∧ f = 0 ∨ u ≠ u' ∧ (e ^ 2 + e * f + f ^ 2 = 1)) ∧ |e| ≤ 1 ∧ |f| ≤ 1 ∧
      ∀ c : Fin 2 → ℤ, ndist (u + comb kagomeCell.vectors c) u' ^ 2 =
        (((2 * c 0 + e) ^ 2 + (2 * c 0 + e) * (2 * c 1 + f) + (2 * c 1 + f) ^ 2 : ℤ) : ℝ) * (1 / 4) := by
  have mem : ∀ {u : Pt 2}, u ∈ kagomeCell.points → ∃ e f : ℤ,
      (e = 0 ∧ f = 0 ∨ e = 0 ∧ f = 1 ∨ e = 1 ∧ f = 0) ∧
        u = ![((e : ℝ) + (f : ℝ) / 2) / 2, (f : ℝ) * (r3 / 4)] := by
    intro u h
    simp only [kagomeCell, List.mem_cons, List.not_mem_nil, or_false] at h
    rcases h with rfl | rfl | rfl
    · exact ⟨0, 0, by simp, pt2_ext (by simp) (by simp)⟩
    · exact ⟨0, 1, by simp, pt2_ext (by norm_num) (by simp)⟩
    · exact ⟨1, 0, by simp, pt2_ext (by norm_num) (by simp)⟩
  obtain ⟨e, f, he, rfl⟩ := mem hu
  obtain ⟨e', f', he', rfl⟩ := mem hu'
  have hinj : (![((e : ℝ) + (f : ℝ) / 2) / 2, (f : ℝ) * (r3 / 4)] : Pt 2) =
      ![((e' : ℝ) + (f' : ℝ) / 2) / 2, (f' : ℝ) * (r3 / 4)] → e = e' ∧ f = f' := by
    intro h
    have g0 := congrFun h 0
    have g1 := congrFun h 1
    simp only [Matrix.cons_val_zero, Matrix.cons_val_one, Matrix.cons_val_fin_one] at g0 g1
    have h3 : (0 : ℝ) < r3 := r3_pos
    have hf : (f : ℝ) = f' := mul_right_cancel₀ (by positivity) g1
    have he : (e : ℝ) = e' := by rw [hf] at g0; linarith
    exact ⟨by exact_mod_cast he, by exact_mod_cast hf⟩
  refine ⟨e - e', f - f', ?_, ?_, ?_, fun c => ?_⟩
  · by_cases h : e = e' ∧ f = f'
    · left
      rw [h.1, h.2]; simp
    · right
      refine ⟨fun h' => h (hinj h'), ?_⟩
      rcases he with ⟨rfl, rfl⟩ | ⟨rfl, rfl⟩ | ⟨rfl, rfl⟩ <;>
        rcases he' with ⟨rfl, rfl⟩ | ⟨rfl, rfl⟩ | ⟨rfl, rfl⟩ <;> simp at h ⊢
  · rw [abs_le]; omega
  · rw [abs_le]; omega
  · have h : c = ![c 0, c 1] := by funext i; fin_cases i <;> rfl
    rw [ndist_sq]
    conv_lhs => rw [h]
    rw [kagome_key]
    congr 3 <;> ring

theorem kagome_first_mem : ∃ u ∈ kagomeCell.points, ∃ u' ∈ kagomeCell.points,
    ndist (u + comb kagomeCell.vectors 0) u' = 1 / 2 := by
  obtain ⟨-, -, -, -, hin⟩ := kagome_cell
  rcases hin with ⟨u, h, -⟩ | ⟨u, hu, u', hu', -, e⟩
  · simp [kagomeCell] at h
  · exact ⟨u, hu, u', hu', by rw [comb_zero, add_zero]; exact e⟩

theorem half_sqrt3_sq : (Real.sqrt 3 / 2) ^ 2 = 3 / 4 := by
  rw [div_pow, three_sq]; norm_num

theorem kagome_far (q : Fin 2) : ∃ u ∈ kagomeCell.points, ∃ u' ∈ kagomeCell.points,
    ndist (u + comb kagomeCell.vectors (Pi.single q 1)) u' = Real.sqrt 3 / 2 := by
  have m1 : (![1 / 4, r3 / 4] : Pt 2) ∈ kagomeCell.points := by simp [kagomeCell]
  have m2 : (![1 / 2, 0] : Pt 2) ∈ kagomeCell.points := by simp [kagomeCell]
  have e1 : (![1 / 4, r3 / 4] : Pt 2) =
      ![(((0 : ℤ) : ℝ) + ((1 : ℤ) : ℝ) / 2) / 2, ((1 : ℤ) : ℝ) * (r3 / 4)] :=
    pt2_ext (by norm_num) (by simp)
  have e2 : (![1 / 2, 0] : Pt 2) =
      ![(((1 : ℤ) : ℝ) + ((0 : ℤ) : ℝ) / 2) / 2, ((0 : ℤ) : ℝ) * (r3 / 4)] :=
    pt2_ext (by norm_num) (by simp)
  fin_cases q
  · refine ⟨_, m1, _, m2, ndist_of_sq (by positivity) ?_⟩
    have h : (Pi.single (0 : Fin 2) 1 : Fin 2 → ℤ) = ![1, 0] := by funext i; fin_cases i <;> rfl
    change ndist (_ + comb _ (Pi.single (0 : Fin 2) 1)) _ ^ 2 = _
    rw [half_sqrt3_sq, ndist_sq, h, e1, e2, kagome_key]
    norm_num
  · refine ⟨_, m2, _, m1, ndist_of_sq (by positivity) ?_⟩
    have h : (Pi.single (1 : Fin 2) 1 : Fin 2 → ℤ) = ![0, 1] := by funext i; fin_cases i <;> rfl
    change ndist (_ + comb _ (Pi.single (1 : Fin 2) 1)) _ ^ 2 = _
    rw [half_sqrt3_sq, ndist_sq, h, e1, e2, kagome_key]
    norm_num

theorem kagome_second :
    SecondData kagomeSites kagomeCell.points kagomeCell.vectors (1 / 2) (Real.sqrt 3 / 2) := by
  refine secondData_of tiling_kagome kagome_form two_inv_sqrt3_nn (P := fun z => z ≠ 2)
    (z1 := 1) (z2 := 3) ?_ (by norm_num) (by norm_num) (by intro z hz _; omega) (by norm_num)
    (by positivity) (by norm_num) (by rw [half_sqrt3_sq]; norm_num) (by linarith [sqrt3_lt]) ?_ ?_ ?_
  · intro u hu u' hu' a
    obtain ⟨e, f, -, -, -, h⟩ := kagome_sq hu hu'
    exact ⟨_, hex_ne_two _ _, h a⟩
  · obtain ⟨u, hu, u', hu', e⟩ := kagome_first_mem
    exact ⟨u, hu, u', hu', 0, e⟩
  · obtain ⟨u, hu, u', hu', e⟩ := kagome_far 0
    exact ⟨u, hu, u', hu', _, e⟩
  · have : 2 / Real.sqrt 3 * (Real.sqrt 3 / 2) = 1 := by field_simp
    rw [this]; norm_num

end Verif.LDB
