import Verif.Proofs.NearestGeneric
/-!
Helper lemmas: nearest neighbours of the supercells built by `lattice_generator` (for C94).
-/

namespace Verif.LDB

open Verif.Latt

variable {m : ℕ} {prec : ℕ} {S : Set (Pt m)} {d : ℝ}

theorem ndist_eq_iff {p q : Pt m} (hd : 0 ≤ d) : ndist p q = d ↔ ∑ a, (p a - q a) ^ 2 = d ^ 2 := by
  unfold ndist
  rw [Real.sqrt_eq_iff_mul_self_eq (Finset.sum_nonneg fun _ _ => sq_nonneg _) hd, sq, eq_comm]

theorem lt_ndist {p q : Pt m} {r : ℝ} (hr : 0 ≤ r) (h : r ^ 2 < ∑ a, (p a - q a) ^ 2) :
    r < ndist p q := by
  unfold ndist
  exact Real.lt_sqrt_of_sq_lt h

/-- What is needed about the unit cell. -/
structure CellData (S : Set (Pt m)) (l : List (Pt m)) (V : Fin m → Pt m) (d : ℝ) : Prop where
  pos : 0 < d
  gap : Gap S d
  box : ∀ u ∈ l, ∀ u' ∈ l, ∀ c : Fin m → ℤ, ndist (u + comb V c) u' = d → ∀ q, |c q| ≤ 1
  outer : ∃ q, ∃ u ∈ l, ∃ u' ∈ l, ndist (u + comb V (Pi.single q 1)) u' = d
  inner : (∃ u, l = [u] ∧ ∀ q, ndist (u + comb V (Pi.single q 1)) u = d) ∨
    ∃ u ∈ l, ∃ u' ∈ l, u ≠ u' ∧ ndist u u' = d

theorem nearest_super {count : ℕ} {l : List (Pt m)} {V : Fin m → Pt m} (hc : CellData S l V d)
    (hl : LTiling S l V) {ns : Fin m → ℤ} (hns : ∀ q, 1 ≤ ns q) {points : Fin count → Pt m}
    (ht : ExactTiling S points (scaleVectors ns V))
    (hcell : ∀ i, ∃ u ∈ l, ∃ r : Fin m → ℤ, (∀ q, 0 ≤ r q ∧ r q < ns q) ∧ points i = u + comb V r) :
    NearestData S points (scaleVectors ns V) d := by
  -- every site of the block of cells is a point
  have back : ∀ u ∈ l, ∀ r : Fin m → ℤ, (∀ q, 0 ≤ r q ∧ r q < ns q) → ∃ i, points i = u + comb V r := by
    intro u hu r hr
    obtain ⟨⟨i, c⟩, hq, -⟩ := ht.covers _ (hl.inside u hu r)
    obtain ⟨u', hu', r', hr', hi⟩ := hcell i
    dsimp only at hq
    rw [hi, comb_scale, add_assoc, ← comb_add] at hq
    obtain ⟨e1, e2⟩ := hl.uniq u hu u' hu' r _ hq
    refine ⟨i, ?_⟩
    rw [hi, e1]
    congr 2
    funext q
    have := congrFun e2 q
    simp only [Pi.add_apply] at this
    have h1 := hr q
    have h2 := hr' q
    have h3 := hns q
    have hc0 : c q = 0 := by
      by_contra hne
      rcases lt_or_gt_of_ne hne with hlt | hgt
      · have : ns q * c q ≤ ns q * (-1) := mul_le_mul_of_nonneg_left (by omega) (by omega)
        linarith
      · have : ns q * 1 ≤ ns q * c q := mul_le_mul_of_nonneg_left (by omega) (by omega)
        linarith
    rw [hc0] at this
    omega
  have zero_ok : ∀ q, 0 ≤ (0 : Fin m → ℤ) q ∧ (0 : Fin m → ℤ) q < ns q := fun q => by
    have := hns q
    simp only [Pi.zero_apply]
    omega
  refine ⟨ht, hc.pos, hc.gap, ?_, ?_, ?_⟩
  · intro i j c hd q
    obtain ⟨u, hu, r, hr, hi⟩ := hcell i
    obtain ⟨u', hu', r', hr', hj⟩ := hcell j
    have e : ndist (points i + comb (scaleVectors ns V) c) (points j) =
        ndist (u + comb V (r + (fun i => ns i * c i) - r')) u' := by
      rw [hi, hj, comb_scale, ndist_eq, ndist_eq, comb_sub, comb_add]
      congr 1; abel
    rw [e] at hd
    have hb := abs_le.1 (hc.box u hu u' hu' _ hd q)
    simp only [Pi.add_apply, Pi.sub_apply] at hb
    have h1 := hr q
    have h2 := hr' q
    have h3 := hns q
    rw [abs_le]
    constructor
    · by_contra hcon
      have : ns q * c q ≤ ns q * (-2) := mul_le_mul_of_nonneg_left (by omega) (by omega)
      linarith [hb.1]
    · by_contra hcon
      have : ns q * 2 ≤ ns q * c q := mul_le_mul_of_nonneg_left (by omega) (by omega)
      linarith [hb.2]
  · obtain ⟨q, u, hu, u', hu', hd⟩ := hc.outer
    obtain ⟨j, hj⟩ := back u' hu' (Pi.single q (ns q - 1)) fun x => by
      by_cases hx : x = q
      · subst hx; have := hns x; simp; omega
      · rw [Pi.single_eq_of_ne hx]; have := hns x; omega
    obtain ⟨i, hi⟩ := back u hu 0 zero_ok
    refine ⟨Pi.single q 1, ⟨fun x => ?_, q, by simp⟩, i, j, ?_⟩
    · by_cases hx : x = q
      · subst hx; simp
      · rw [Pi.single_eq_of_ne hx]; simp
    · rw [← hd, hi, hj, comb_scale, comb_zero, add_zero, ndist_eq, ndist_eq]
      have : (fun i => ns i * (Pi.single q 1 : Fin m → ℤ) i) =
          (Pi.single q 1 : Fin m → ℤ) + Pi.single q (ns q - 1) := by
        funext x
        by_cases hx : x = q
        · subst hx; simp
        · simp [Pi.single_eq_of_ne hx]
      rw [this, comb_add]
      congr 1; abel
  · rcases hc.inner with ⟨u, rfl, hd⟩ | ⟨u, hu, u', hu', hne, hd⟩
    · by_cases hall : ∀ q, ns q = 1
      · left
        have : ∀ i j : Fin count, i = j := by
          intro i j
          obtain ⟨u1, hu1, r1, hr1, hi⟩ := hcell i
          obtain ⟨u2, hu2, r2, hr2, hj⟩ := hcell j
          rw [List.mem_singleton] at hu1 hu2
          have e1 : r1 = r2 := by
            funext q
            have h1 := hr1 q
            have h2 := hr2 q
            have h3 := hall q
            omega
          have e : points i + comb (scaleVectors ns V) 0 = points j + comb (scaleVectors ns V) 0 := by
            rw [hi, hj, hu1, hu2, e1]
          exact (tiling_inj ht e).1
        obtain ⟨i, _⟩ := back u (by simp) 0 zero_ok
        have h1 : 1 ≤ count := by have := i.2; omega
        by_contra hcon
        have := this ⟨0, by omega⟩ ⟨1, by omega⟩
        simp at this
      · right
        push Not at hall
        obtain ⟨q, hq⟩ := hall
        obtain ⟨i, hi⟩ := back u (by simp) (Pi.single q 1) fun x => by
          by_cases hx : x = q
          · subst hx; have := hns x; simp; omega
          · rw [Pi.single_eq_of_ne hx]; have := hns x; omega
        obtain ⟨j, hj⟩ := back u (by simp) 0 zero_ok
        rw [comb_zero, add_zero] at hj
        have hdd : ndist (points i) (points j) = d := by rw [hi, hj]; exact hd q
        refine ⟨i, j, ?_, hdd⟩
        rintro rfl
        rw [ndist_self] at hdd
        exact hc.pos.ne hdd
    · right
      obtain ⟨i, hi⟩ := back u hu 0 zero_ok
      obtain ⟨j, hj⟩ := back u' hu' 0 zero_ok
      rw [comb_zero, add_zero] at hi hj
      have hdd : ndist (points i) (points j) = d := by rw [hi, hj]; exact hd
      refine ⟨i, j, ?_, hdd⟩
      rintro rfl
      rw [ndist_self] at hdd
      exact hc.pos.ne hdd

theorem mk_points {l : List (Pt m)} {v : Fin m → Pt m} {count : ℕ} {L : Lat count m m}
    (h : mkLattice prec l v = .ok ⟨count, m, m, L⟩) : ∀ i, L.points i ∈ l := by
  unfold mkLattice at h
  rcases hi : init prec l.get v with e | L'
  · rw [hi] at h; simp [Except.map] at h
  · rw [hi] at h
    have hB : (⟨l.length, m, m, L'⟩ : Built) = ⟨count, m, m, L⟩ := Except.ok.inj h
    have hc : l.length = count := congrArg Built.n hB
    subst hc
    simp only [Built.mk.injEq, heq_eq_eq, true_and] at hB
    subst hB
    obtain ⟨h1, _⟩ := C46_reciprocal_dual hi
    intro i
    rw [h1]
    exact List.get_mem _ _

theorem mem_superPoints {k : ℕ} {ns : Fin k → ℤ} {l : List (Pt m)} {V : Fin k → Pt m} {p : Pt m}
    (h : p ∈ superPoints ns l V) :
    ∃ u ∈ l, ∃ r : Fin k → ℤ, (∀ q, 0 ≤ r q ∧ r q < ns q) ∧ p = u + comb V r := by
  unfold superPoints at h
  rw [List.mem_flatMap] at h
  obtain ⟨c, hc, h⟩ := h
  rw [List.mem_map] at h
  obtain ⟨u, hu, rfl⟩ := h
  exact ⟨u, hu, c, (mem_prodRange _ _).1 hc, add_comm _ _⟩

theorem cell_of_branch {info : Info m} (nums : List ℤ)
    (hlen : nums.length = m) {count : ℕ} {ones : Prop} [Decidable ones]
    (hones : ones → ∀ i : Fin m, nums.getD i 0 = 1) {L : Lat count m m}
    (h : (if ones then mkLattice prec info.points info.vectors else superLattice prec info nums) =
      .ok ⟨count, m, m, L⟩) (i : Fin count) :
    ∃ u ∈ info.points, ∃ r : Fin m → ℤ, (∀ q : Fin m, 0 ≤ r q ∧ r q < nums.getD q 0) ∧
      L.points i = u + comb info.vectors r := by
  by_cases ho : ones
  · rw [if_pos ho] at h
    refine ⟨_, mk_points h i, 0, fun q => ?_, by rw [comb_zero, add_zero]⟩
    rw [hones ho q]; simp
  · rw [if_neg ho, superLattice, if_pos hlen] at h
    exact mem_superPoints (mk_points h i)

/-! ### The unit cells -/

theorem int_sq_le_one {a : ℤ} (h : a ^ 2 ≤ 1) : |a| ≤ 1 := by
  rw [abs_le]; constructor <;> nlinarith

theorem hex_box {a b : ℤ} (h : a ^ 2 + a * b + b ^ 2 ≤ 1) : |a| ≤ 1 ∧ |b| ≤ 1 := by
  constructor
  · refine int_sq_le_one ?_
    by_contra hc
    have : 4 ≤ a ^ 2 := by
      have h2 : 2 ≤ |a| := by
        by_contra h3
        have : |a| ≤ 1 := by omega
        have := sq_le_one_iff_abs_le_one a |>.2 this
        omega
      have := mul_self_le_mul_self (by norm_num) h2
      rw [abs_mul_abs_self] at this
      nlinarith
    nlinarith [sq_nonneg (a + 2 * b)]
  · refine int_sq_le_one ?_
    by_contra hc
    have : 4 ≤ b ^ 2 := by
      have h2 : 2 ≤ |b| := by
        by_contra h3
        have : |b| ≤ 1 := by omega
        have := sq_le_one_iff_abs_le_one b |>.2 this
        omega
      have := mul_self_le_mul_self (by norm_num) h2
      rw [abs_mul_abs_self] at this
      nlinarith
    nlinarith [sq_nonneg (2 * a + b)]

theorem hex_pos {a b : ℤ} (h : ¬ (a = 0 ∧ b = 0)) : 1 ≤ a ^ 2 + a * b + b ^ 2 := by
  by_contra hc
  have h0 : a ^ 2 + a * b + b ^ 2 ≤ 0 := by omega
  have hb : b ^ 2 ≤ 0 := by nlinarith [sq_nonneg (2 * a + b)]
  have ha : a ^ 2 ≤ 0 := by nlinarith [sq_nonneg (a + 2 * b)]
  exact h ⟨by nlinarith [pow_eq_zero_iff (M₀ := ℤ) (n := 2) (by norm_num) |>.1 (le_antisymm ha (sq_nonneg a))],
    by nlinarith [pow_eq_zero_iff (M₀ := ℤ) (n := 2) (by norm_num) |>.1 (le_antisymm hb (sq_nonneg b))]⟩

/-- Distances whose squares are whole multiples of a unit. -/
theorem gap_of_units {p q : Pt m} (hd : 0 < d) {u : ℝ} (z : ℤ) (hz : 1 ≤ z)
    (hs : ∑ a, (p a - q a) ^ 2 = z * u) (hu : d ^ 2 = u) (hgap : (d + 3 / 20) ^ 2 < 2 * u) :
    ndist p q = d ∨ d + 3 / 20 < ndist p q := by
  rcases eq_or_lt_of_le hz with h1 | h1
  · left
    rw [ndist_eq_iff hd.le, hs, ← h1, hu]; simp
  · right
    refine lt_ndist (by linarith) ?_
    rw [hs]
    have h2 : (2 : ℝ) ≤ z := by exact_mod_cast h1
    have hu0 : 0 < u := by rw [← hu]; positivity
    nlinarith

theorem chain_cell : CellData chainSites chainCell.points chainCell.vectors 1 := by
  refine ⟨one_pos, ?_, ?_, ?_, ?_⟩
  · rintro s ⟨a, rfl⟩ t ⟨b, rfl⟩ hst
    refine gap_of_units one_pos ((a - b) ^ 2) ?_ (u := 1) ?_ (by norm_num) (by norm_num)
    · have : a - b ≠ 0 := fun h => hst (by rw [sub_eq_zero.1 h])
      have := pow_pos (abs_pos.2 this) 2
      rw [sq_abs] at this
      omega
    · simp
  · intro u hu u' hu' c h q
    simp only [chainCell, List.mem_singleton] at hu hu'
    subst hu hu'
    rw [ndist_eq_iff zero_le_one] at h
    simp [chainCell, comb] at h
    have hq : q = 0 := Subsingleton.elim _ _
    subst hq
    have : (c 0) ^ 2 = 1 := by
      rcases h with h | h
      · have : c 0 = 1 := by exact_mod_cast h
        rw [this]; norm_num
      · have : c 0 = -1 := by exact_mod_cast h
        rw [this]; norm_num
    exact int_sq_le_one this.le
  · refine ⟨0, ![0], by simp [chainCell], ![0], by simp [chainCell], ?_⟩
    rw [ndist_eq_iff zero_le_one]
    simp [chainCell, comb]
  · left
    refine ⟨![0], rfl, fun q => ?_⟩
    have hq : q = 0 := Subsingleton.elim _ _
    subst hq
    rw [ndist_eq_iff zero_le_one]
    simp [chainCell, comb]

theorem square_cell : CellData squareSites squareCell.points squareCell.vectors 1 := by
  have key : ∀ (a b : ℤ), ∑ x, (((![0, 0] : Pt 2) + comb squareCell.vectors ![a, b]) x - (![0, 0] : Pt 2) x) ^ 2 =
      (a : ℝ) ^ 2 + b ^ 2 := by
    intro a b
    rw [Fin.sum_univ_two]
    simp [squareCell, comb, Fin.sum_univ_two]
  have hsingle : ∀ q : Fin 2, ndist ((![0, 0] : Pt 2) + comb squareCell.vectors (Pi.single q 1)) ![0, 0] = 1 := by
    intro q
    rw [ndist_eq_iff zero_le_one]
    fin_cases q
    · have := key 1 0
      rw [show (Pi.single ((fun i => i) ⟨0, by norm_num⟩ : Fin 2) 1 : Fin 2 → ℤ) = ![1, 0] from by
        funext i; fin_cases i <;> rfl, this]; norm_num
    · have := key 0 1
      rw [show (Pi.single ((fun i => i) ⟨1, by norm_num⟩ : Fin 2) 1 : Fin 2 → ℤ) = ![0, 1] from by
        funext i; fin_cases i <;> rfl, this]; norm_num
  refine ⟨one_pos, ?_, ?_, ?_, ?_⟩
  · rintro s ⟨a, b, rfl⟩ t ⟨a', b', rfl⟩ hst
    refine gap_of_units one_pos ((a - a') ^ 2 + (b - b') ^ 2) ?_ (u := 1) ?_ (by norm_num) (by norm_num)
    · by_contra hc
      have h1 : (a - a') ^ 2 = 0 := by nlinarith [sq_nonneg (a - a'), sq_nonneg (b - b')]
      have h2 : (b - b') ^ 2 = 0 := by nlinarith [sq_nonneg (a - a'), sq_nonneg (b - b')]
      rw [sq_eq_zero_iff, sub_eq_zero] at h1 h2
      exact hst (by rw [h1, h2])
    · rw [Fin.sum_univ_two]; simp
  · intro u hu u' hu' c h q
    simp only [squareCell, List.mem_singleton] at hu hu'
    subst hu hu'
    rw [ndist_eq_iff zero_le_one, show c = ![c 0, c 1] from by funext i; fin_cases i <;> rfl, key] at h
    have h' : c 0 ^ 2 + c 1 ^ 2 = 1 := by exact_mod_cast (by linarith : (c 0 : ℝ) ^ 2 + (c 1 : ℝ) ^ 2 = 1)
    have b0 : |c 0| ≤ 1 := int_sq_le_one (by nlinarith [sq_nonneg (c 1)])
    have b1 : |c 1| ≤ 1 := int_sq_le_one (by nlinarith [sq_nonneg (c 0)])
    fin_cases q
    · exact b0
    · exact b1
  · exact ⟨0, ![0, 0], by simp [squareCell], ![0, 0], by simp [squareCell], hsingle 0⟩
  · exact Or.inl ⟨![0, 0], rfl, hsingle⟩

theorem cubic_cell : CellData cubicSites cubicCell.points cubicCell.vectors 1 := by
  have key : ∀ (a b c : ℤ), ∑ x, (((![0, 0, 0] : Pt 3) + comb cubicCell.vectors ![a, b, c]) x - (![0, 0, 0] : Pt 3) x) ^ 2 =
      (a : ℝ) ^ 2 + b ^ 2 + c ^ 2 := by
    intro a b c
    rw [Fin.sum_univ_three]
    simp [cubicCell, comb, Fin.sum_univ_three]
  have hsingle : ∀ q : Fin 3, ndist ((![0, 0, 0] : Pt 3) + comb cubicCell.vectors (Pi.single q 1)) ![0, 0, 0] = 1 := by
    intro q
    rw [ndist_eq_iff zero_le_one]
    fin_cases q
    · have := key 1 0 0
      rw [show (Pi.single ((fun i => i) ⟨0, by norm_num⟩ : Fin 3) 1 : Fin 3 → ℤ) = ![1, 0, 0] from by
        funext i; fin_cases i <;> rfl, this]; norm_num
    · have := key 0 1 0
      rw [show (Pi.single ((fun i => i) ⟨1, by norm_num⟩ : Fin 3) 1 : Fin 3 → ℤ) = ![0, 1, 0] from by
        funext i; fin_cases i <;> rfl, this]; norm_num
    · have := key 0 0 1
      rw [show (Pi.single ((fun i => i) ⟨2, by norm_num⟩ : Fin 3) 1 : Fin 3 → ℤ) = ![0, 0, 1] from by
        funext i; fin_cases i <;> rfl, this]; norm_num
  refine ⟨one_pos, ?_, ?_, ?_, ?_⟩
  · rintro s ⟨a, b, c, rfl⟩ t ⟨a', b', c', rfl⟩ hst
    refine gap_of_units one_pos ((a - a') ^ 2 + (b - b') ^ 2 + (c - c') ^ 2) ?_ (u := 1) ?_ (by norm_num) (by norm_num)
    · by_contra hc
      have h1 : (a - a') ^ 2 = 0 := by nlinarith [sq_nonneg (a - a'), sq_nonneg (b - b'), sq_nonneg (c - c')]
      have h2 : (b - b') ^ 2 = 0 := by nlinarith [sq_nonneg (a - a'), sq_nonneg (b - b'), sq_nonneg (c - c')]
      have h3 : (c - c') ^ 2 = 0 := by nlinarith [sq_nonneg (a - a'), sq_nonneg (b - b'), sq_nonneg (c - c')]
      rw [sq_eq_zero_iff, sub_eq_zero] at h1 h2 h3
      exact hst (by rw [h1, h2, h3])
    · rw [Fin.sum_univ_three]; simp
  · intro u hu u' hu' c h q
    simp only [cubicCell, List.mem_singleton] at hu hu'
    subst hu hu'
    rw [ndist_eq_iff zero_le_one, show c = ![c 0, c 1, c 2] from by funext i; fin_cases i <;> rfl, key] at h
    have h' : c 0 ^ 2 + c 1 ^ 2 + c 2 ^ 2 = 1 := by
      exact_mod_cast (by linarith : (c 0 : ℝ) ^ 2 + (c 1 : ℝ) ^ 2 + (c 2 : ℝ) ^ 2 = 1)
    have b0 : |c 0| ≤ 1 := int_sq_le_one (by nlinarith [sq_nonneg (c 1), sq_nonneg (c 2)])
    have b1 : |c 1| ≤ 1 := int_sq_le_one (by nlinarith [sq_nonneg (c 0), sq_nonneg (c 2)])
    have b2 : |c 2| ≤ 1 := int_sq_le_one (by nlinarith [sq_nonneg (c 0), sq_nonneg (c 1)])
    fin_cases q
    · exact b0
    · exact b1
    · exact b2
  · exact ⟨0, ![0, 0, 0], by simp [cubicCell], ![0, 0, 0], by simp [cubicCell], hsingle 0⟩
  · exact Or.inl ⟨![0, 0, 0], rfl, hsingle⟩

theorem triangle_cell : CellData triangleSites triangleCell.points triangleCell.vectors 1 := by
  have h3 := r3_sq
  have key : ∀ (a b : ℤ), ∑ x, (((![0, 0] : Pt 2) + comb triangleCell.vectors ![a, b]) x - (![0, 0] : Pt 2) x) ^ 2 =
      (a : ℝ) ^ 2 + a * b + b ^ 2 := by
    intro a b
    rw [Fin.sum_univ_two, Pi.add_apply, Pi.add_apply, triBasis_0, triBasis_1]
    simp only [Matrix.cons_val_zero, Matrix.cons_val_one, Matrix.cons_val_fin_one]
    linear_combination ((b : ℝ) ^ 2 / 4) * h3
  have hsingle : ∀ q : Fin 2, ndist ((![0, 0] : Pt 2) + comb triangleCell.vectors (Pi.single q 1)) ![0, 0] = 1 := by
    intro q
    rw [ndist_eq_iff zero_le_one]
    fin_cases q
    · have := key 1 0
      rw [show (Pi.single ((fun i => i) ⟨0, by norm_num⟩ : Fin 2) 1 : Fin 2 → ℤ) = ![1, 0] from by
        funext i; fin_cases i <;> rfl, this]; norm_num
    · have := key 0 1
      rw [show (Pi.single ((fun i => i) ⟨1, by norm_num⟩ : Fin 2) 1 : Fin 2 → ℤ) = ![0, 1] from by
        funext i; fin_cases i <;> rfl, this]; norm_num
  refine ⟨one_pos, ?_, ?_, ?_, ?_⟩
  · rintro s ⟨a, b, rfl⟩ t ⟨a', b', rfl⟩ hst
    refine gap_of_units one_pos ((a - a') ^ 2 + (a - a') * (b - b') + (b - b') ^ 2) (hex_pos ?_) (u := 1) ?_
      (by norm_num) (by norm_num)
    · rintro ⟨h1, h2⟩
      rw [sub_eq_zero] at h1 h2
      exact hst (by rw [h1, h2])
    · have h3' : Real.sqrt 3 * Real.sqrt 3 = 3 := h3
      rw [Fin.sum_univ_two]
      simp only [Matrix.cons_val_zero, Matrix.cons_val_one, Matrix.cons_val_fin_one]
      push_cast
      linear_combination (((b : ℝ) - b') ^ 2 / 4) * h3'
  · intro u hu u' hu' c h q
    simp only [triangleCell, List.mem_singleton] at hu hu'
    subst hu hu'
    rw [ndist_eq_iff zero_le_one, show c = ![c 0, c 1] from by funext i; fin_cases i <;> rfl, key] at h
    have h' : c 0 ^ 2 + c 0 * c 1 + c 1 ^ 2 = 1 := by
      exact_mod_cast (by linarith : (c 0 : ℝ) ^ 2 + (c 0 : ℝ) * c 1 + (c 1 : ℝ) ^ 2 = 1)
    obtain ⟨h1, h2⟩ := hex_box h'.le
    fin_cases q
    · exact h1
    · exact h2
  · exact ⟨0, ![0, 0], by simp [triangleCell], ![0, 0], by simp [triangleCell], hsingle 0⟩
  · exact Or.inl ⟨![0, 0], rfl, hsingle⟩

/-! ### Honeycomb and kagome -/

theorem inv_sqrt3 : 1 / Real.sqrt 3 = r3 / 3 := by
  rw [one_div]; exact inv_r3

theorem inv_sqrt3_pos : 0 < 1 / Real.sqrt 3 := one_div_pos.2 r3_pos

theorem inv_sqrt3_sq : (1 / Real.sqrt 3) ^ 2 = 1 / 3 := by
  rw [inv_sqrt3]; linear_combination (1 / 9 : ℝ) * r3_sq

theorem inv_sqrt3_gap : (1 / Real.sqrt 3 + 3 / 20) ^ 2 < 2 * (1 / 3) := by
  have h1 := inv_sqrt3_sq
  have h2 := inv_sqrt3_pos
  have h3 : 1 / Real.sqrt 3 < 3 / 5 := by
    by_contra hc
    push Not at hc
    nlinarith
  nlinarith

/-- Three times the squared distance of two honeycomb sites. -/
theorem honey_pos {a b η : ℤ} (hη : η = -1 ∨ η = 0 ∨ η = 1) (h : ¬ (a = 0 ∧ b = 0 ∧ η = 0)) :
    1 ≤ 3 * (a ^ 2 + a * b + b ^ 2) + 3 * (b * η) + η ^ 2 := by
  rcases hη with rfl | rfl | rfl
  · have h1 : 0 ≤ a ^ 2 + a * b + b ^ 2 - b := by
      have : 0 < 4 * (a ^ 2 + a * b + b ^ 2 - b) + 2 := by nlinarith [sq_nonneg (2 * a + b), sq_nonneg (3 * b - 2)]
      omega
    nlinarith
  · have := hex_pos (a := a) (b := b) (fun hab => h ⟨hab.1, hab.2, rfl⟩)
    nlinarith
  · have h1 : 0 ≤ a ^ 2 + a * b + b ^ 2 + b := by
      have : 0 < 4 * (a ^ 2 + a * b + b ^ 2 + b) + 2 := by nlinarith [sq_nonneg (2 * a + b), sq_nonneg (3 * b + 2)]
      omega
    nlinarith

theorem honey_box {a b η : ℤ} (hη : η = -1 ∨ η = 0 ∨ η = 1)
    (h : 3 * (a ^ 2 + a * b + b ^ 2) + 3 * (b * η) + η ^ 2 = 1) : |a| ≤ 1 ∧ |b| ≤ 1 := by
  refine hex_box ?_
  rcases hη with rfl | rfl | rfl
  · have h1 : a ^ 2 + a * b + b ^ 2 = b := by linarith
    have : b ≤ 1 := by
      by_contra hc
      have : 2 ≤ b := by omega
      nlinarith [sq_nonneg (2 * a + b)]
    omega
  · omega
  · have h1 : a ^ 2 + a * b + b ^ 2 = -b := by linarith
    have : -1 ≤ b := by
      by_contra hc
      have : b ≤ -2 := by omega
      nlinarith [sq_nonneg (2 * a + b)]
    omega

theorem mem_honeycombCell {u : Pt 2} (h : u ∈ honeycombCell.points) :
    ∃ e : ℤ, (e = -1 ∨ e = 1) ∧ u = ![0, (e : ℝ) * (r3 / 6)] := by
  simp only [honeycombCell, List.mem_cons, List.not_mem_nil, or_false] at h
  rcases h with rfl | rfl
  · refine ⟨-1, Or.inl rfl, pt2_ext rfl ?_⟩
    simp only [Matrix.cons_val_one, Matrix.cons_val_fin_one, div_eq_mul_inv, inv_r3]
    push_cast; ring
  · refine ⟨1, Or.inr rfl, pt2_ext rfl ?_⟩
    simp only [Matrix.cons_val_one, Matrix.cons_val_fin_one, div_eq_mul_inv, inv_r3]
    push_cast; ring

theorem honey_key (a b e e' η : ℤ) (h : e - e' = 2 * η) :
    ∑ x, (((![0, (e : ℝ) * (r3 / 6)] : Pt 2) + comb honeycombCell.vectors ![a, b]) x -
      (![0, (e' : ℝ) * (r3 / 6)] : Pt 2) x) ^ 2 =
      ((3 * (a ^ 2 + a * b + b ^ 2) + 3 * (b * η) + η ^ 2 : ℤ) : ℝ) * (1 / 3) := by
  have h3 := r3_sq
  have h' : (e : ℝ) - e' = 2 * η := by exact_mod_cast h
  rw [Fin.sum_univ_two, Pi.add_apply, Pi.add_apply, show honeycombCell.vectors = triangleCell.vectors from rfl,
    triBasis_0, triBasis_1]
  simp only [Matrix.cons_val_zero, Matrix.cons_val_one, Matrix.cons_val_fin_one]
  push_cast
  have : (e : ℝ) = e' + 2 * η := by linarith
  rw [this]
  linear_combination (((b : ℝ) / 2 + η / 3) ^ 2) * h3

theorem honeycomb_cell :
    CellData honeycombSites honeycombCell.points honeycombCell.vectors (1 / Real.sqrt 3) := by
  have hη : ∀ {e e' : ℤ}, (e = -1 ∨ e = 1) → (e' = -1 ∨ e' = 1) →
      ∃ η : ℤ, e - e' = 2 * η ∧ (η = -1 ∨ η = 0 ∨ η = 1) := by
    rintro e e' (rfl | rfl) (rfl | rfl)
    · exact ⟨0, by norm_num⟩
    · exact ⟨-1, by norm_num⟩
    · exact ⟨1, by norm_num⟩
    · exact ⟨0, by norm_num⟩
  have m0 : (![0, (((-1 : ℤ)) : ℝ) * (r3 / 6)] : Pt 2) ∈ honeycombCell.points := by
    have : (![0, (((-1 : ℤ)) : ℝ) * (r3 / 6)] : Pt 2) = ![0, -(1 / 2) / r3] := by
      refine pt2_ext rfl ?_
      simp only [Matrix.cons_val_one, Matrix.cons_val_fin_one, div_eq_mul_inv, inv_r3]
      push_cast; ring
    rw [this]; simp [honeycombCell]
  have m1 : (![0, (((1 : ℤ)) : ℝ) * (r3 / 6)] : Pt 2) ∈ honeycombCell.points := by
    have : (![0, (((1 : ℤ)) : ℝ) * (r3 / 6)] : Pt 2) = ![0, 1 / 2 / r3] := by
      refine pt2_ext rfl ?_
      simp only [Matrix.cons_val_one, Matrix.cons_val_fin_one, div_eq_mul_inv, inv_r3]
      push_cast; ring
    rw [this]; simp [honeycombCell]
  refine ⟨inv_sqrt3_pos, ?_, ?_, ?_, ?_⟩
  · intro s hs t ht hst
    obtain ⟨a, b, e, he, hs0, hs1⟩ := (honeycomb_iff s).1 hs
    obtain ⟨a', b', e', he', ht0, ht1⟩ := (honeycomb_iff t).1 ht
    obtain ⟨η, h1, h2⟩ := hη he he'
    refine gap_of_units inv_sqrt3_pos
      (3 * ((a - a') ^ 2 + (a - a') * (b - b') + (b - b') ^ 2) + 3 * ((b - b') * η) + η ^ 2)
      (honey_pos h2 ?_) (u := 1 / 3) ?_ inv_sqrt3_sq inv_sqrt3_gap
    · rintro ⟨g1, g2, g3⟩
      subst g3
      have g4 : e = e' := by omega
      rw [sub_eq_zero] at g1 g2
      exact hst (pt2_ext (by rw [hs0, ht0, g1, g2]) (by rw [hs1, ht1, g2, g4]))
    · have h3 := r3_sq
      have h' : (e : ℝ) - e' = 2 * η := by exact_mod_cast h1
      have : (e : ℝ) = e' + 2 * η := by linarith
      rw [Fin.sum_univ_two, hs0, hs1, ht0, ht1]
      push_cast
      rw [this]
      linear_combination ((((b : ℝ) - b') / 2 + η / 3) ^ 2) * h3
  · intro u hu u' hu' c h q
    obtain ⟨e, he, rfl⟩ := mem_honeycombCell hu
    obtain ⟨e', he', rfl⟩ := mem_honeycombCell hu'
    obtain ⟨η, h1, h2⟩ := hη he he'
    rw [ndist_eq_iff inv_sqrt3_pos.le, show c = ![c 0, c 1] from by funext i; fin_cases i <;> rfl,
      honey_key _ _ e e' η h1, inv_sqrt3_sq] at h
    have h' : 3 * (c 0 ^ 2 + c 0 * c 1 + c 1 ^ 2) + 3 * (c 1 * η) + η ^ 2 = 1 := by
      have : ((3 * (c 0 ^ 2 + c 0 * c 1 + c 1 ^ 2) + 3 * (c 1 * η) + η ^ 2 : ℤ) : ℝ) = 1 := by linarith
      exact_mod_cast this
    obtain ⟨h4, h5⟩ := honey_box h2 h'
    fin_cases q
    · exact h4
    · exact h5
  · refine ⟨1, _, m0, _, m1, ?_⟩
    rw [ndist_eq_iff inv_sqrt3_pos.le, show (Pi.single (1 : Fin 2) 1 : Fin 2 → ℤ) = ![0, 1] from by
        funext i; fin_cases i <;> rfl, honey_key 0 1 (-1) 1 (-1) (by norm_num), inv_sqrt3_sq]
    norm_num
  · refine Or.inr ⟨_, m0, _, m1, ?_, ?_⟩
    · intro h
      have := congrFun h 1
      simp only [Matrix.cons_val_one, Matrix.cons_val_fin_one] at this
      have hp := r3_pos
      push_cast at this
      linarith
    · have := honey_key 0 0 (-1) 1 (-1) (by norm_num)
      rw [show (![0, 0] : Fin 2 → ℤ) = 0 from by funext i; fin_cases i <;> rfl, comb_zero, add_zero] at this
      rw [ndist_eq_iff inv_sqrt3_pos.le, this, inv_sqrt3_sq]
      norm_num

theorem mem_kagomeCell {u : Pt 2} (h : u ∈ kagomeCell.points) :
    ∃ e f : ℤ, (e = 0 ∨ e = 1) ∧ (f = 0 ∨ f = 1) ∧
      u = ![((e : ℝ) + (f : ℝ) / 2) / 2, (f : ℝ) * (r3 / 4)] := by
  simp only [kagomeCell, List.mem_cons, List.not_mem_nil, or_false] at h
  rcases h with rfl | rfl | rfl
  · exact ⟨0, 0, Or.inl rfl, Or.inl rfl, pt2_ext (by simp) (by simp)⟩
  · refine ⟨0, 1, Or.inl rfl, Or.inr rfl, pt2_ext (by norm_num) ?_⟩
    simp
  · refine ⟨1, 0, Or.inr rfl, Or.inl rfl, pt2_ext (by norm_num) (by simp)⟩

theorem kagome_key (a b e f e' f' : ℤ) :
    ∑ x, (((![((e : ℝ) + (f : ℝ) / 2) / 2, (f : ℝ) * (r3 / 4)] : Pt 2) + comb kagomeCell.vectors ![a, b]) x -
      (![((e' : ℝ) + (f' : ℝ) / 2) / 2, (f' : ℝ) * (r3 / 4)] : Pt 2) x) ^ 2 =
      (((2 * a + e - e') ^ 2 + (2 * a + e - e') * (2 * b + f - f') + (2 * b + f - f') ^ 2 : ℤ) : ℝ) * (1 / 4) := by
  have h3 := r3_sq
  rw [Fin.sum_univ_two, Pi.add_apply, Pi.add_apply, show kagomeCell.vectors = triangleCell.vectors from rfl,
    triBasis_0, triBasis_1]
  simp only [Matrix.cons_val_zero, Matrix.cons_val_one, Matrix.cons_val_fin_one]
  push_cast
  linear_combination ((2 * (b : ℝ) + f - f') ^ 2 / 16) * h3

theorem kagome_cell : CellData kagomeSites kagomeCell.points kagomeCell.vectors (1 / 2) := by
  have m0 : (![(((0 : ℤ) : ℝ) + ((0 : ℤ) : ℝ) / 2) / 2, ((0 : ℤ) : ℝ) * (r3 / 4)] : Pt 2) ∈ kagomeCell.points := by
    have : (![(((0 : ℤ) : ℝ) + ((0 : ℤ) : ℝ) / 2) / 2, ((0 : ℤ) : ℝ) * (r3 / 4)] : Pt 2) = ![0, 0] :=
      pt2_ext (by simp) (by simp)
    rw [this]; simp [kagomeCell]
  have m1 : (![(((1 : ℤ) : ℝ) + ((0 : ℤ) : ℝ) / 2) / 2, ((0 : ℤ) : ℝ) * (r3 / 4)] : Pt 2) ∈ kagomeCell.points := by
    have : (![(((1 : ℤ) : ℝ) + ((0 : ℤ) : ℝ) / 2) / 2, ((0 : ℤ) : ℝ) * (r3 / 4)] : Pt 2) = ![1 / 2, 0] :=
      pt2_ext (by norm_num) (by simp)
    rw [this]; simp [kagomeCell]
  have hpos : (0 : ℝ) < 1 / 2 := by norm_num
  refine ⟨hpos, ?_, ?_, ?_, ?_⟩
  · rintro s ⟨a, b, -, rfl⟩ t ⟨a', b', -, rfl⟩ hst
    refine gap_of_units hpos ((a - a') ^ 2 + (a - a') * (b - b') + (b - b') ^ 2) (hex_pos ?_) (u := 1 / 4) ?_
      (by norm_num) (by norm_num)
    · rintro ⟨h1, h2⟩
      rw [sub_eq_zero] at h1 h2
      exact hst (by rw [h1, h2])
    · have h3' : Real.sqrt 3 * Real.sqrt 3 = 3 := r3_sq
      rw [Fin.sum_univ_two]
      simp only [Matrix.cons_val_zero, Matrix.cons_val_one, Matrix.cons_val_fin_one]
      push_cast
      linear_combination (((b : ℝ) - b') ^ 2 / 16) * h3'
  · intro u hu u' hu' c h q
    obtain ⟨e, f, he, hf, rfl⟩ := mem_kagomeCell hu
    obtain ⟨e', f', he', hf', rfl⟩ := mem_kagomeCell hu'
    rw [ndist_eq_iff hpos.le, show c = ![c 0, c 1] from by funext i; fin_cases i <;> rfl,
      kagome_key] at h
    set A := 2 * c 0 + e - e' with hA
    set B := 2 * c 1 + f - f' with hB
    have h' : A ^ 2 + A * B + B ^ 2 = 1 := by
      have : ((A ^ 2 + A * B + B ^ 2 : ℤ) : ℝ) = 1 := by linarith
      exact_mod_cast this
    obtain ⟨h4, h5⟩ := hex_box h'.le
    rw [abs_le] at h4 h5
    have b0 : |c 0| ≤ 1 := by rw [abs_le]; omega
    have b1 : |c 1| ≤ 1 := by rw [abs_le]; omega
    fin_cases q
    · exact b0
    · exact b1
  · refine ⟨0, _, m0, _, m1, ?_⟩
    rw [ndist_eq_iff hpos.le, show (Pi.single (0 : Fin 2) 1 : Fin 2 → ℤ) = ![1, 0] from by
        funext i; fin_cases i <;> rfl, kagome_key]
    norm_num
  · refine Or.inr ⟨_, m0, _, m1, ?_, ?_⟩
    · intro h
      have := congrFun h 0
      simp only [Matrix.cons_val_zero] at this
      norm_num at this
    · have := kagome_key 0 0 0 0 1 0
      rw [show (![0, 0] : Fin 2 → ℤ) = 0 from by funext i; fin_cases i <;> rfl, comb_zero, add_zero] at this
      rw [ndist_eq_iff hpos.le, this]
      norm_num

end Verif.LDB
