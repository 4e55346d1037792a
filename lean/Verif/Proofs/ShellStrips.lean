import Verif.Proofs.ShellSecond
/-!
Helper lemmas: the second neighbours of the generated lattices, and the strips on which they are missed
(for C96).
-/

namespace Verif.LDB

open Verif.Latt

variable {m : ℕ} {prec : ℕ} {n0 n1 n2 : ℤ} {S : Set (Pt m)}

theorem box_of_form {l : List (Pt m)} {V : Fin m → Pt m} {unit κ τ d2 : ℝ} (hf : CellForm l V unit κ τ)
    (hκ : 0 ≤ κ) (h : κ * d2 + τ < 2) {ns : Fin m → ℤ} (hns : ∀ q, 1 ≤ ns q) :
    ∀ u ∈ l, ∀ u' ∈ l, ∀ a : Fin m → ℤ, ndist (u + comb V a) u' ≤ d2 → ∀ q, |a q| ≤ ns q := by
  intro u hu u' hu' a ha q
  have h1 := hf.wide u hu u' hu' a q
  have h2 := mul_le_mul_of_nonneg_left ha hκ
  have : |(a q : ℝ)| < 2 := by linarith
  have : |a q| < 2 := by exact_mod_cast this
  have := hns q
  omega

theorem roundTo_two (prec : ℕ) : roundTo prec 2 = 2 := by
  unfold roundTo
  have : (2 : ℝ) * 10 ^ prec = ((2 * 10 ^ prec : ℤ) : ℝ) := by push_cast; ring
  rw [this, rint_intCast]
  push_cast
  field_simp

theorem second_chain (hp : 2 ≤ prec) (h0 : 1 ≤ n0) (h1 : 1 ≤ n1) (h2 : 1 ≤ n2) :
    FindsShell prec chainSites 2 2 (latticeGenerator prec "chain" n0 n1 n2) :=
  findsShell_of (good_chain (by omega) h0 h1 h2) le_rfl
    (shellMonotone_of_weaklyOrthogonal _ (weaklyOrthogonal_one _)) fun L hL ht => by
      have hcell := cell_1d h0 h1 h2 hL
      refine second_super tiling_chain chain_cell chain_form hp chain_second ht hcell (one_pos' h0) ?_ ?_
      · by_cases hn : 3 ≤ n0
        · left
          constructor
          · exact ⟨![0], by simp [chainCell], ![0], by simp [chainCell], ![1],
              fun q => by fin_cases q; change |(1 : ℤ)| < n0; norm_num; omega,
              ndist_of_sq (by norm_num) (by rw [chain_sq]; simp)⟩
          · exact ⟨![0], by simp [chainCell], ![0], by simp [chainCell], ![2],
              fun q => by fin_cases q; change |(2 : ℤ)| < n0; norm_num; omega,
              ndist_of_sq (by norm_num) (by rw [chain_sq]; norm_num)⟩
        · right
          intro u hu u' hu' a ha hne
          simp only [chainCell, List.mem_singleton] at hu hu'
          subst hu hu'
          refine ndist_of_sq (by norm_num) ?_
          rw [chain_sq]
          have h3 : |a 0| < n0 := ha 0
          have h4 : a 0 ≠ 0 := by
            rcases hne with h | h
            · simp at h
            · intro e; exact h (by funext q; fin_cases q; exact e)
          have h5 := abs_pos.2 h4
          have : |a 0| = 1 := by omega
          rw [← sq_abs, this]; norm_num
      · by_cases hn : 2 ≤ n0
        · left
          intro u hu u' hu' a ha q
          have := chain_second.reach u hu u' hu' a ha q
          fin_cases q
          change |a 0| ≤ n0
          exact this.trans hn
        · right
          have hn1 : n0 = 1 := by omega
          obtain ⟨i, hi⟩ := super_back tiling_chain ht hcell (u := ![0]) (by simp [chainCell]) (r := 0)
            fun q => by have := one_pos' h0 q; simp only [Pi.zero_apply]; omega
          refine ⟨![2], ⟨fun q => by fin_cases q; norm_num, 0, by norm_num⟩, i, i, ?_⟩
          rw [roundTo_two, hi, comb_scale, comb_zero, add_zero]
          refine le_of_eq (ndist_of_sq (by norm_num) ?_)
          rw [chain_sq, hn1]
          norm_num

theorem cons2_lt {a b x y : ℤ} (h0 : |a| < x) (h1 : |b| < y) (q : Fin 2) : |(![a, b] : Fin 2 → ℤ) q| < (![x, y] : Fin 2 → ℤ) q := by
  fin_cases q
  · exact h0
  · exact h1

theorem cons3_lt {a b c x y z : ℤ} (h0 : |a| < x) (h1 : |b| < y) (h2 : |c| < z) (q : Fin 3) :
    |(![a, b, c] : Fin 3 → ℤ) q| < (![x, y, z] : Fin 3 → ℤ) q := by
  fin_cases q
  · exact h0
  · exact h1
  · exact h2

theorem second_square (hp : 2 ≤ prec) (h0 : 1 ≤ n0) (h1 : 1 ≤ n1) (h2 : 1 ≤ n2)
    (hn : ¬ ((n0 = 1 ∧ 3 ≤ n1) ∨ (n1 = 1 ∧ 3 ≤ n0))) :
    FindsShell prec squareSites 2 (Real.sqrt 2) (latticeGenerator prec "square" n0 n1 n2) :=
  findsShell_of (good_square (by omega) h0 h1 h2) (by norm_num)
    (shellMonotone_of_wideAngle _ (weak_square n0 n1)) fun L hL ht => by
      have hcell := cell_2d (info := squareCell) h0 h1 h2 (by simp [commonCell]) (by decide) (by decide) hL
      refine second_super tiling_square square_cell square_form hp square_second ht hcell (two_pos h0 h1) ?_
        (Or.inl (box_of_form square_form zero_le_one (by linarith [sqrt2_lt]) (two_pos h0 h1)))
      by_cases hb : 2 ≤ n0 ∧ 2 ≤ n1
      · left
        constructor
        · exact ⟨![0, 0], by simp [squareCell], ![0, 0], by simp [squareCell], ![1, 0],
            cons2_lt (by norm_num; omega) (by norm_num; omega),
            ndist_of_sq (by norm_num) (by rw [square_sq]; simp)⟩
        · exact ⟨![0, 0], by simp [squareCell], ![0, 0], by simp [squareCell], ![1, 1],
            cons2_lt (by norm_num; omega) (by norm_num; omega),
            ndist_of_sq (Real.sqrt_nonneg _) (by rw [square_sq]; norm_num)⟩
      · right
        intro u hu u' hu' a ha hne
        simp only [squareCell, List.mem_singleton] at hu hu'
        subst hu hu'
        refine ndist_of_sq (by norm_num) ?_
        rw [square_sq]
        have g0 : |a 0| < n0 := ha 0
        have g1 : |a 1| < n1 := ha 1
        have hne' : a 0 ≠ 0 ∨ a 1 ≠ 0 := by
          rcases hne with h | h
          · simp at h
          · by_contra hc
            push Not at hc
            exact h (by funext q; fin_cases q; exacts [hc.1, hc.2])
        have key : |a 0| = 0 ∧ |a 1| = 1 ∨ |a 0| = 1 ∧ |a 1| = 0 := by
          have f0 := abs_nonneg (a 0)
          have f1 := abs_nonneg (a 1)
          rcases hne' with h | h
          · have := abs_pos.2 h; omega
          · have := abs_pos.2 h; omega
        rw [← sq_abs (a 0), ← sq_abs (a 1)]
        rcases key with ⟨k0, k1⟩ | ⟨k0, k1⟩ <;> rw [k0, k1] <;> norm_num

theorem second_cubic (hp : 2 ≤ prec) (h0 : 1 ≤ n0) (h1 : 1 ≤ n1) (h2 : 1 ≤ n2)
    (hn : ¬ ((n0 = 1 ∧ n1 = 1 ∧ 3 ≤ n2) ∨ (n1 = 1 ∧ n2 = 1 ∧ 3 ≤ n0) ∨ (n2 = 1 ∧ n0 = 1 ∧ 3 ≤ n1))) :
    FindsShell prec cubicSites 2 (Real.sqrt 2) (latticeGenerator prec "cubic" n0 n1 n2) :=
  findsShell_of (good_cubic (by omega) h0 h1 h2) (by norm_num)
    (shellMonotone_of_weaklyOrthogonal _ (weak_cubic n0 n1 n2)) fun L hL ht => by
      have hcell := cell_3d h0 h1 h2 hL
      refine second_super tiling_cubic cubic_cell cubic_form hp cubic_second ht hcell (three_pos h0 h1 h2) ?_
        (Or.inl (box_of_form cubic_form zero_le_one (by linarith [sqrt2_lt]) (three_pos h0 h1 h2)))
      have sq3 : ∀ a b c : ℤ, ndist (![0, 0, 0] + comb cubicCell.vectors ![a, b, c]) ![0, 0, 0] ^ 2 =
          ((a ^ 2 + b ^ 2 + c ^ 2 : ℤ) : ℝ) * 1 := fun a b c => cubic_sq _
      have one : ∀ a b c : ℤ, a ^ 2 + b ^ 2 + c ^ 2 = 1 → |a| < n0 → |b| < n1 → |c| < n2 →
          ∃ u ∈ cubicCell.points, ∃ u' ∈ cubicCell.points, ∃ a : Fin 3 → ℤ,
            (∀ q, |a q| < (![n0, n1, n2] : Fin 3 → ℤ) q) ∧ ndist (u + comb cubicCell.vectors a) u' = 1 :=
        fun a b c h g0 g1 g2 => ⟨![0, 0, 0], by simp [cubicCell], ![0, 0, 0], by simp [cubicCell], ![a, b, c],
            cons3_lt g0 g1 g2, ndist_of_sq (by norm_num) (by rw [sq3, h]; norm_num)⟩
      have two : ∀ a b c : ℤ, a ^ 2 + b ^ 2 + c ^ 2 = 2 → |a| < n0 → |b| < n1 → |c| < n2 →
          ∃ u ∈ cubicCell.points, ∃ u' ∈ cubicCell.points, ∃ a : Fin 3 → ℤ,
            (∀ q, |a q| < (![n0, n1, n2] : Fin 3 → ℤ) q) ∧
              ndist (u + comb cubicCell.vectors a) u' = Real.sqrt 2 :=
        fun a b c h g0 g1 g2 => ⟨![0, 0, 0], by simp [cubicCell], ![0, 0, 0], by simp [cubicCell], ![a, b, c],
            cons3_lt g0 g1 g2, ndist_of_sq (Real.sqrt_nonneg _) (by rw [sq3, h]; norm_num)⟩
      by_cases hb : (2 ≤ n0 ∧ 2 ≤ n1) ∨ (2 ≤ n1 ∧ 2 ≤ n2) ∨ (2 ≤ n2 ∧ 2 ≤ n0)
      · left
        rcases hb with hb | hb | hb
        · exact ⟨one 1 0 0 (by norm_num) (by norm_num; omega) (by norm_num; omega) (by norm_num; omega),
            two 1 1 0 (by norm_num) (by norm_num; omega) (by norm_num; omega) (by norm_num; omega)⟩
        · exact ⟨one 0 1 0 (by norm_num) (by norm_num; omega) (by norm_num; omega) (by norm_num; omega),
            two 0 1 1 (by norm_num) (by norm_num; omega) (by norm_num; omega) (by norm_num; omega)⟩
        · exact ⟨one 1 0 0 (by norm_num) (by norm_num; omega) (by norm_num; omega) (by norm_num; omega),
            two 1 0 1 (by norm_num) (by norm_num; omega) (by norm_num; omega) (by norm_num; omega)⟩
      · right
        intro u hu u' hu' a ha hne
        simp only [cubicCell, List.mem_singleton] at hu hu'
        subst hu hu'
        refine ndist_of_sq (by norm_num) ?_
        rw [cubic_sq]
        have g0 : |a 0| < n0 := ha 0
        have g1 : |a 1| < n1 := ha 1
        have g2 : |a 2| < n2 := ha 2
        have hne' : a 0 ≠ 0 ∨ a 1 ≠ 0 ∨ a 2 ≠ 0 := by
          rcases hne with h | h
          · simp at h
          · by_contra hc
            push Not at hc
            exact h (by funext q; fin_cases q; exacts [hc.1, hc.2.1, hc.2.2])
        have key : |a 0| = 0 ∧ |a 1| = 0 ∧ |a 2| = 1 ∨ |a 0| = 0 ∧ |a 1| = 1 ∧ |a 2| = 0 ∨
            |a 0| = 1 ∧ |a 1| = 0 ∧ |a 2| = 0 := by
          have f0 := abs_nonneg (a 0)
          have f1 := abs_nonneg (a 1)
          have f2 := abs_nonneg (a 2)
          rcases hne' with h | h | h
          · have := abs_pos.2 h; omega
          · have := abs_pos.2 h; omega
          · have := abs_pos.2 h; omega
        rw [← sq_abs (a 0), ← sq_abs (a 1), ← sq_abs (a 2)]
        rcases key with ⟨k0, k1, k2⟩ | ⟨k0, k1, k2⟩ | ⟨k0, k1, k2⟩ <;> rw [k0, k1, k2] <;> norm_num

theorem second_triangle (hp : 2 ≤ prec) (h0 : 1 ≤ n0) (h1 : 1 ≤ n1) (h2 : 1 ≤ n2)
    (hn : ¬ ((n0 = 1 ∧ 3 ≤ n1) ∨ (n1 = 1 ∧ 3 ≤ n0)))
    (hr : 2 ≤ n0 ∧ 2 ≤ n1 ∨ Real.sqrt 3 ≤ roundTo prec (Real.sqrt 3)) :
    FindsShell prec triangleSites 2 (Real.sqrt 3) (latticeGenerator prec "triangle" n0 n1 n2) :=
  findsShell_of (good_triangle (by omega) h0 h1 h2) (by norm_num)
    (shellMonotone_of_wideAngle _ (wide_triangle n0 n1)) fun L hL ht => by
      have hcell := cell_2d (info := triangleCell) h0 h1 h2 (by simp [commonCell]) (by decide) (by decide) hL
      refine second_super tiling_triangle triangle_cell triangle_form hp triangle_second ht hcell
        (two_pos h0 h1) ?_ ?_
      · by_cases hb : 2 ≤ n0 ∧ 2 ≤ n1
        · left
          constructor
          · exact ⟨![0, 0], by simp [triangleCell], ![0, 0], by simp [triangleCell], ![1, 0],
              cons2_lt (by norm_num; omega) (by norm_num; omega),
              ndist_of_sq (by norm_num) (by rw [triangle_sq]; simp)⟩
          · exact ⟨![0, 0], by simp [triangleCell], ![0, 0], by simp [triangleCell], ![1, 1],
              cons2_lt (by norm_num; omega) (by norm_num; omega),
              ndist_of_sq (Real.sqrt_nonneg _) (by rw [triangle_sq]; norm_num)⟩
        · right
          intro u hu u' hu' a ha hne
          simp only [triangleCell, List.mem_singleton] at hu hu'
          subst hu hu'
          refine ndist_of_sq (by norm_num) ?_
          rw [triangle_sq]
          have g0 : |a 0| < n0 := ha 0
          have g1 : |a 1| < n1 := ha 1
          have hne' : a 0 ≠ 0 ∨ a 1 ≠ 0 := by
            rcases hne with h | h
            · simp at h
            · by_contra hc
              push Not at hc
              exact h (by funext q; fin_cases q; exacts [hc.1, hc.2])
          have key : a 0 = 0 ∧ |a 1| = 1 ∨ |a 0| = 1 ∧ a 1 = 0 := by
            have f0 := abs_nonneg (a 0)
            have f1 := abs_nonneg (a 1)
            have e0 := abs_eq_zero (a := a 0)
            have e1 := abs_eq_zero (a := a 1)
            rcases hne' with h | h
            · have := abs_pos.2 h; omega
            · have := abs_pos.2 h; omega
          rcases key with ⟨k0, k1⟩ | ⟨k0, k1⟩
          · rw [k0, ← sq_abs (a 1), k1]; norm_num
          · rw [k1, ← sq_abs (a 0), k0]; norm_num
      · rcases hr with hr | hr
        · left
          intro u hu u' hu' a ha q
          have := triangle_second.reach u hu u' hu' a ha q
          fin_cases q
          · exact this.trans hr.1
          · exact this.trans hr.2
        · by_cases hb : 2 ≤ n0 ∧ 2 ≤ n1
          · left
            intro u hu u' hu' a ha q
            have := triangle_second.reach u hu u' hu' a ha q
            fin_cases q
            · exact this.trans hb.1
            · exact this.trans hb.2
          · right
            have mem0 : (![0, 0] : Pt 2) ∈ triangleCell.points := by simp [triangleCell]
            obtain ⟨j, hj⟩ := super_back tiling_triangle ht hcell mem0 (r := 0) (fun q => by
              have := two_pos h0 h1 q; simp only [Pi.zero_apply]; omega)
            by_cases hn0 : n0 = 1
            · obtain ⟨i, hi⟩ := super_back tiling_triangle ht hcell mem0 (r := ![0, n1 - 1]) (fun q => by
                fin_cases q
                · exact ⟨le_rfl, by change (0 : ℤ) < n0; omega⟩
                · change 0 ≤ n1 - 1 ∧ n1 - 1 < n1; omega)
              refine ⟨![2, -1], ⟨fun q => by fin_cases q <;> norm_num, 0, by norm_num⟩, i, j, ?_⟩
              refine le_trans (le_of_eq (ndist_of_sq (Real.sqrt_nonneg _) ?_)) hr
              rw [hi, hj, comb_scale, comb_zero, add_zero, add_assoc, ← comb_add, triangle_sq, three_sq]
              simp only [Pi.add_apply, Matrix.cons_val_zero, Matrix.cons_val_one, Matrix.cons_val_fin_one, hn0]
              push_cast; ring
            · have hn1 : n1 = 1 := by omega
              obtain ⟨i, hi⟩ := super_back tiling_triangle ht hcell mem0 (r := ![n0 - 1, 0]) (fun q => by
                fin_cases q
                · change 0 ≤ n0 - 1 ∧ n0 - 1 < n0; omega
                · exact ⟨le_rfl, by change (0 : ℤ) < n1; omega⟩)
              refine ⟨![-1, 2], ⟨fun q => by fin_cases q <;> norm_num, 1, by norm_num⟩, i, j, ?_⟩
              refine le_trans (le_of_eq (ndist_of_sq (Real.sqrt_nonneg _) ?_)) hr
              rw [hi, hj, comb_scale, comb_zero, add_zero, add_assoc, ← comb_add, triangle_sq, three_sq]
              simp only [Pi.add_apply, Matrix.cons_val_zero, Matrix.cons_val_one, Matrix.cons_val_fin_one, hn1]
              push_cast; ring

theorem second_honeycomb (hp : 2 ≤ prec) (h0 : 1 ≤ n0) (h1 : 1 ≤ n1) (h2 : 1 ≤ n2) :
    FindsShell prec honeycombSites 2 1 (latticeGenerator prec "honeycomb" n0 n1 n2) :=
  findsShell_of (good_honeycomb (by omega) h0 h1 h2) (by norm_num)
    (shellMonotone_of_wideAngle _ (wide_triangle n0 n1)) fun L hL ht => by
      have hcell := cell_2d (info := honeycombCell) h0 h1 h2 (by simp [commonCell]) (by decide) (by decide) hL
      have hpos := two_pos h0 h1
      refine second_super tiling_honeycomb honeycomb_cell honeycomb_form hp honeycomb_second ht hcell
        hpos ?_ (Or.inl (box_of_form honeycomb_form two_inv_sqrt3_nn (by
          have h1 := two_inv_sqrt3_sq
          have h2 := two_inv_sqrt3_nn
          nlinarith) hpos))
      by_cases hb : ∃ q, 2 ≤ (![n0, n1] : Fin 2 → ℤ) q
      · left
        obtain ⟨q, hq⟩ := hb
        constructor
        · obtain ⟨u, hu, u', hu', e⟩ := honeycomb_first_mem
          exact ⟨u, hu, u', hu', 0, fun q => by have := hpos q; simp; omega, e⟩
        · obtain ⟨u, hu, e⟩ := honeycomb_unit q
          refine ⟨u, hu, u, hu, _, fun x => ?_, e⟩
          have := hpos x
          by_cases hx : x = q
          · subst hx; simp; omega
          · rw [Pi.single_eq_of_ne hx]; simp; omega
      · right
        push Not at hb
        intro u hu u' hu' a ha hne
        have ha0 : a = 0 := by
          funext q
          have := ha q
          have := hb q
          have := abs_lt.1 (ha q)
          simp only [Pi.zero_apply]; omega
        obtain ⟨η, k1, k2, k3⟩ := honeycomb_sq hu hu'
        have hη : η ≠ 0 := by
          intro h
          rcases hne with g | g
          · exact g (k2.1 h)
          · exact g ha0
        refine ndist_of_sq inv_sqrt3_pos.le ?_
        rw [k3, inv_sqrt3_sq, ha0]
        rcases k1 with rfl | rfl | rfl
        · norm_num
        · exact absurd rfl hη
        · norm_num

theorem second_kagome (hp : 2 ≤ prec) (h0 : 1 ≤ n0) (h1 : 1 ≤ n1) (h2 : 1 ≤ n2) :
    FindsShell prec kagomeSites 2 (Real.sqrt 3 / 2) (latticeGenerator prec "kagome" n0 n1 n2) :=
  findsShell_of (good_kagome (by omega) h0 h1 h2) (by norm_num)
    (shellMonotone_of_wideAngle _ (wide_triangle n0 n1)) fun L hL ht => by
      have hcell := cell_2d (info := kagomeCell) h0 h1 h2 (by simp [commonCell]) (by decide) (by decide) hL
      have hpos := two_pos h0 h1
      refine second_super tiling_kagome kagome_cell kagome_form hp kagome_second ht hcell
        hpos ?_ (Or.inl (box_of_form kagome_form two_inv_sqrt3_nn (by
          have : 2 / Real.sqrt 3 * (Real.sqrt 3 / 2) = 1 := by field_simp
          rw [this]; norm_num) hpos))
      by_cases hb : ∃ q, 2 ≤ (![n0, n1] : Fin 2 → ℤ) q
      · left
        obtain ⟨q, hq⟩ := hb
        constructor
        · obtain ⟨u, hu, u', hu', e⟩ := kagome_first_mem
          exact ⟨u, hu, u', hu', 0, fun q => by have := hpos q; simp; omega, e⟩
        · obtain ⟨u, hu, u', hu', e⟩ := kagome_far q
          refine ⟨u, hu, u', hu', _, fun x => ?_, e⟩
          have := hpos x
          by_cases hx : x = q
          · subst hx; simp; omega
          · rw [Pi.single_eq_of_ne hx]; simp; omega
      · right
        push Not at hb
        intro u hu u' hu' a ha hne
        have ha0 : a = 0 := by
          funext q
          have := hb q
          have := abs_lt.1 (ha q)
          simp only [Pi.zero_apply]; omega
        obtain ⟨e, f, k1, -, -, k3⟩ := kagome_sq hu hu'
        rcases k1 with ⟨k1, -⟩ | ⟨-, k1⟩
        · rcases hne with g | g
          · exact absurd k1 g
          · exact absurd ha0 g
        · refine ndist_of_sq (by norm_num) ?_
          rw [k3, ha0]
          simp only [Pi.zero_apply, mul_zero, zero_add]
          rw [k1]; norm_num

/-! ### Strips -/

theorem chain_distances {x : ℝ} : x ∈ Distances chainSites ↔ ∃ z : ℤ, 0 < z ∧ x = z := by
  constructor
  · intro hx
    have hx0 := dist_pos hx
    obtain ⟨u, hu, u', hu', a, _, rfl⟩ := distance_cell tiling_chain hx
    simp only [chainCell, List.mem_singleton] at hu hu'
    subst hu hu'
    have e : ndist (![0] + comb chainCell.vectors a) ![0] = ((|a 0| : ℤ) : ℝ) := by
      refine ndist_of_sq (by exact_mod_cast abs_nonneg _) ?_
      rw [chain_sq]
      push_cast
      rw [sq_abs, mul_one]
    refine ⟨|a 0|, ?_, e⟩
    rw [show (![0] : Pt 1) = ![0] from rfl] at hx0
    change 0 < ndist (![0] + comb chainCell.vectors a) ![0] at hx0
    rw [e] at hx0
    exact_mod_cast hx0
  · rintro ⟨z, hz, rfl⟩
    refine mem_distances tiling_chain (u := ![0]) (u' := ![0]) (by simp [chainCell]) (by simp [chainCell])
      (a := ![z]) (by exact_mod_cast hz) (ndist_of_sq (by exact_mod_cast hz.le) ?_)
    rw [chain_sq]; simp

/-- A cluster whose distances are whole numbers gives two as the second distance. -/
theorem strip_two (hp : 2 ≤ prec) {n k : ℕ} {points : Fin n → Pt m} {v : Fin k → Pt m} {L : Lat n m k}
    (hL : init prec points v = .ok L)
    (hint : ∀ i j, i ≠ j → ∃ z : ℤ, 0 < z ∧ ndist (points i) (points j) = z)
    (hone : ∃ i j, i ≠ j ∧ ndist (points i) (points j) = 1)
    (htwo : ∃ i j, i ≠ j ∧ ndist (points i) (points j) = 2)
    (order : List (Fin k → ℤ) → List (Fin k → ℤ)) : (neighborDistance order prec L 2).2 = .ok 2 := by
  obtain ⟨_, _, h'⟩ := init_ok_iff.1 hL
  obtain ⟨-, -, _, _, _, h6⟩ := initSame_ok h'
  have h6' := h6.trans (distances_eq _ _)
  have hpow : (25 : ℝ) ≤ 10 ^ prec := by
    calc (25 : ℝ) ≤ 10 ^ 2 := by norm_num
      _ ≤ 10 ^ prec := pow_le_pow_right₀ (by norm_num) hp
  have hres : Resolved prec chainSites 2 := resolved_of_units (u := 1) (by norm_num) (fun x hx => by
    obtain ⟨z, _, rfl⟩ := chain_distances.1 hx
    exact ⟨z ^ 2, by push_cast; ring⟩) (by omega) (by linarith)
  have hsym : ∀ {i j : Fin n}, i ≠ j → ndist (points i) (points j) ∈ pdist (List.ofFn points) := by
    intro i j hij
    have e : copies points v [0] = List.ofFn points := by
      unfold copies
      simp [comb_zero, List.ofFn_eq_map]
    have := pdist_copies (points := points) (v := v) (T := [0]) (c := 0) (d := 0) (by simp) (by simp)
      (i := i) (j := j) (Or.inr hij)
    rwa [comb_zero, zero_add, zero_add, e] at this
  have hfull : Full prec chainSites 2 (zs prec (pdist (List.ofFn points))) := by
    refine ⟨zs_sorted _ _, fun z hz => ?_, fun x hx hxd => ?_⟩
    · obtain ⟨x, hx, rfl⟩ := mem_zs.1 hz
      refine ⟨x, ?_, rfl⟩
      obtain ⟨a, b, p, q, hab, ha, hb, rfl⟩ := mem_pdist.1 hx
      rw [List.getElem?_ofFn] at ha hb
      split at ha
      · split at hb
        · rw [← Option.some.inj ha, ← Option.some.inj hb]
          exact chain_distances.2 (hint _ _ (by intro e; have := congrArg Fin.val e; simp at this; omega))
        · simp at hb
      · simp at ha
    · obtain ⟨z, hz, rfl⟩ := chain_distances.1 hx
      have hz2 : z ≤ 2 := by exact_mod_cast hxd
      refine mem_zs.2 ⟨z, ?_, rfl⟩
      have : z = 1 ∨ z = 2 := by omega
      rcases this with rfl | rfl
      · obtain ⟨i, j, hij, e⟩ := hone
        have := hsym hij
        rw [e] at this
        exact_mod_cast this
      · obtain ⟨i, j, hij, e⟩ := htwo
        have := hsym hij
        rw [e] at this
        exact_mod_cast this
  have := full_get hfull hres chain_second.isNth le_rfl
  refine neighbor_answer (by norm_num) ?_
  have hget : L.allDist[(2 : ℤ).toNat]? = some 2 := by
    rw [h6']
    rw [show (2 : ℤ).toNat = 1 + 1 from rfl, List.getElem?_cons_succ, List.getElem?_map, this]
    have e := roundTo_two prec
    unfold roundTo at e
    simp [e]
  unfold neighborDistance
  rw [if_neg (by norm_num), hget]
  exact hget

theorem super_same {count : ℕ} {l : List (Pt m)} {V : Fin m → Pt m} (hl : LTiling S l V) {ns : Fin m → ℤ}
    {points : Fin count → Pt m} (ht : ExactTiling S points (scaleVectors ns V)) {q : Fin m} {u : Pt m}
    (hu : l = [u]) (hcell : ∀ i, ∃ u ∈ l, ∃ r : Fin m → ℤ, (∀ q, 0 ≤ r q ∧ r q < ns q) ∧
      points i = u + comb V r) (hq : 3 ≤ ns q) (hns : ∀ x, x ≠ q → ns x = 1)
    (hunit : ∀ z : ℤ, ndist (u + comb V (Pi.single q z)) u ^ 2 = (z : ℝ) ^ 2) :
    (∀ i j, i ≠ j → ∃ z : ℤ, 0 < z ∧ ndist (points i) (points j) = z) ∧
    (∃ i j, i ≠ j ∧ ndist (points i) (points j) = 1) ∧
    (∃ i j, i ≠ j ∧ ndist (points i) (points j) = 2) := by
  have hd : ∀ z : ℤ, ndist (u + comb V (Pi.single q z)) u = ((|z| : ℤ) : ℝ) := fun z =>
    ndist_of_sq (by exact_mod_cast abs_nonneg z) (by rw [hunit]; push_cast; rw [sq_abs])
  have hform : ∀ i j, ∃ z : ℤ, (i ≠ j → z ≠ 0) ∧ ndist (points i) (points j) = ((|z| : ℤ) : ℝ) := by
    intro i j
    obtain ⟨u1, hu1, r, hr, hi⟩ := hcell i
    obtain ⟨u2, hu2, r', hr', hj⟩ := hcell j
    rw [hu, List.mem_singleton] at hu1 hu2
    subst hu1 hu2
    have e : r - r' = Pi.single q (r q - r' q) := by
      funext x
      by_cases hx : x = q
      · subst hx; simp
      · rw [Pi.single_eq_of_ne hx, Pi.sub_apply]
        have := hns x hx
        have := hr x
        have := hr' x
        omega
    refine ⟨r q - r' q, fun hij h0 => hij ?_, ?_⟩
    · rw [h0, Pi.single_zero] at e
      have e' : points i + comb (scaleVectors ns V) 0 = points j + comb (scaleVectors ns V) 0 := by
        rw [hi, hj, sub_eq_zero.1 e]
      exact (tiling_inj ht e').1
    · rw [← hd, ← e, hi, hj, ndist_eq, ndist_eq, comb_sub]; congr 1; abel
  have hback : ∀ z : ℤ, 0 ≤ z → z < 3 → ∃ i, points i = u + comb V (Pi.single q z) := by
    intro z h0 h3
    refine super_back hl ht hcell (by rw [hu]; simp) fun x => ?_
    by_cases hx : x = q
    · subst hx; simp; omega
    · rw [Pi.single_eq_of_ne hx]; have := hns x hx; omega
  have hpair : ∀ z : ℤ, 0 < z → z < 3 → ∃ i j, i ≠ j ∧ ndist (points i) (points j) = z := by
    intro z h0 h3
    obtain ⟨i, hi⟩ := hback z h0.le h3
    obtain ⟨j, hj⟩ := hback 0 le_rfl (by norm_num)
    have e : ndist (points i) (points j) = z := by
      rw [hi, hj, Pi.single_zero, comb_zero, add_zero, hd, abs_of_pos h0]
    refine ⟨i, j, ?_, e⟩
    rintro rfl
    rw [ndist_self] at e
    have : z = 0 := by exact_mod_cast e.symm
    omega
  refine ⟨fun i j hij => ?_, ?_, ?_⟩
  · obtain ⟨z, hz, e⟩ := hform i j
    exact ⟨|z|, abs_pos.2 (hz hij), e⟩
  · simpa using hpair 1 (by norm_num) (by norm_num)
  · simpa using hpair 2 (by norm_num) (by norm_num)

theorem not_finds_of_two {r : Py Built} (h : ReportsTwo m prec r) {d : ℝ} (hd : d + tol prec / 2 < 2) :
    ¬ FindsShell prec S 2 d r := by
  rintro ⟨n, L, h1, h2⟩
  obtain ⟨n', L', h1', h2'⟩ := h
  rw [h1] at h1'
  have := Except.ok.inj h1'
  cases this
  have h3 := (h2 id (fun l => List.Perm.refl l) (fun _ => id) (fun _ l => List.Perm.refl l) [] true).1
  have h4 := h2' id
  simp only [List.foldl_nil] at h3
  have h5 : (Except.ok (roundTo prec d) : Py ℝ) = .ok 2 := by rw [← h3, ← h4]; rfl
  have h6 := Except.ok.inj h5
  have := (abs_le.1 (roundTo_near prec d)).2
  linarith

theorem strip_square (hp : 2 ≤ prec) (h0 : 1 ≤ n0) (h1 : 1 ≤ n1) (h2 : 1 ≤ n2)
    (hn : (n0 = 1 ∧ 3 ≤ n1) ∨ (n1 = 1 ∧ 3 ≤ n0)) :
    ReportsTwo 2 prec (latticeGenerator prec "square" n0 n1 n2) := by
  obtain ⟨L, k1, k2, k3, k4, -⟩ := good_square (prec := prec) (by omega) h0 h1 h2
  refine ⟨_, L, k1, fun order => ?_⟩
  have hcell := cell_2d (info := squareCell) h0 h1 h2 (by simp [commonCell]) (by decide) (by decide) k1
  rw [k2] at k4
  have hu : ∀ q : Fin 2, ∀ z : ℤ,
      ndist (![0, 0] + comb squareCell.vectors (Pi.single q z)) ![0, 0] ^ 2 = (z : ℝ) ^ 2 := by
    intro q z
    rw [square_sq]
    fin_cases q <;> simp
  rcases hn with ⟨a, b⟩ | ⟨a, b⟩
  · obtain ⟨s1, s2, s3⟩ := super_same tiling_square (q := 1) k4 rfl hcell b
      (fun x hx => by fin_cases x; exacts [a, absurd rfl hx]) (hu 1)
    exact strip_two hp k3 s1 s2 s3 order
  · obtain ⟨s1, s2, s3⟩ := super_same tiling_square (q := 0) k4 rfl hcell b
      (fun x hx => by fin_cases x; exacts [absurd rfl hx, a]) (hu 0)
    exact strip_two hp k3 s1 s2 s3 order

theorem strip_triangle (hp : 2 ≤ prec) (h0 : 1 ≤ n0) (h1 : 1 ≤ n1) (h2 : 1 ≤ n2)
    (hn : (n0 = 1 ∧ 3 ≤ n1) ∨ (n1 = 1 ∧ 3 ≤ n0)) :
    ReportsTwo 2 prec (latticeGenerator prec "triangle" n0 n1 n2) := by
  obtain ⟨L, k1, k2, k3, k4, -⟩ := good_triangle (prec := prec) (by omega) h0 h1 h2
  refine ⟨_, L, k1, fun order => ?_⟩
  have hcell := cell_2d (info := triangleCell) h0 h1 h2 (by simp [commonCell]) (by decide) (by decide) k1
  rw [k2] at k4
  have hu : ∀ q : Fin 2, ∀ z : ℤ,
      ndist (![0, 0] + comb triangleCell.vectors (Pi.single q z)) ![0, 0] ^ 2 = (z : ℝ) ^ 2 := by
    intro q z
    rw [triangle_sq]
    fin_cases q <;> simp
  rcases hn with ⟨a, b⟩ | ⟨a, b⟩
  · obtain ⟨s1, s2, s3⟩ := super_same tiling_triangle (q := 1) k4 rfl hcell b
      (fun x hx => by fin_cases x; exacts [a, absurd rfl hx]) (hu 1)
    exact strip_two hp k3 s1 s2 s3 order
  · obtain ⟨s1, s2, s3⟩ := super_same tiling_triangle (q := 0) k4 rfl hcell b
      (fun x hx => by fin_cases x; exacts [absurd rfl hx, a]) (hu 0)
    exact strip_two hp k3 s1 s2 s3 order

theorem strip_cubic (hp : 2 ≤ prec) (h0 : 1 ≤ n0) (h1 : 1 ≤ n1) (h2 : 1 ≤ n2)
    (hn : (n0 = 1 ∧ n1 = 1 ∧ 3 ≤ n2) ∨ (n1 = 1 ∧ n2 = 1 ∧ 3 ≤ n0) ∨ (n2 = 1 ∧ n0 = 1 ∧ 3 ≤ n1)) :
    ReportsTwo 3 prec (latticeGenerator prec "cubic" n0 n1 n2) := by
  obtain ⟨L, k1, k2, k3, k4, -⟩ := good_cubic (prec := prec) (by omega) h0 h1 h2
  refine ⟨_, L, k1, fun order => ?_⟩
  have hcell := cell_3d h0 h1 h2 k1
  rw [k2] at k4
  have hu : ∀ q : Fin 3, ∀ z : ℤ,
      ndist (![0, 0, 0] + comb cubicCell.vectors (Pi.single q z)) ![0, 0, 0] ^ 2 = (z : ℝ) ^ 2 := by
    intro q z
    rw [cubic_sq]
    fin_cases q <;> simp
  rcases hn with ⟨a, b, c⟩ | ⟨a, b, c⟩ | ⟨a, b, c⟩
  · obtain ⟨s1, s2, s3⟩ := super_same tiling_cubic (q := 2) k4 rfl hcell c
      (fun x hx => by fin_cases x; exacts [a, b, absurd rfl hx]) (hu 2)
    exact strip_two hp k3 s1 s2 s3 order
  · obtain ⟨s1, s2, s3⟩ := super_same tiling_cubic (q := 0) k4 rfl hcell c
      (fun x hx => by fin_cases x; exacts [absurd rfl hx, a, b]) (hu 0)
    exact strip_two hp k3 s1 s2 s3 order
  · obtain ⟨s1, s2, s3⟩ := super_same tiling_cubic (q := 1) k4 rfl hcell c
      (fun x hx => by fin_cases x; exacts [b, absurd rfl hx, a]) (hu 1)
    exact strip_two hp k3 s1 s2 s3 order

/-- `√3` rounded down on a triangular cluster of width one: second neighbours are missed. -/
theorem triangle_down (hp : 2 ≤ prec) (h0 : 1 ≤ n0) (h1 : 1 ≤ n1) (h2 : 1 ≤ n2)
    (hn : n0 = 1 ∨ n1 = 1) (hr : roundTo prec (Real.sqrt 3) < Real.sqrt 3) :
    ¬ FindsShell prec triangleSites 2 (Real.sqrt 3) (latticeGenerator prec "triangle" n0 n1 n2) := by
  rintro ⟨n, L, k1, hall⟩
  obtain ⟨L2, k1', k2, k3, k4, -⟩ := good_triangle (prec := prec) (by omega) h0 h1 h2
  rw [k1] at k1'
  have := Except.ok.inj k1'
  cases this
  have hcell := cell_2d (info := triangleCell) h0 h1 h2 (by simp [commonCell]) (by decide) (by decide) k1
  have hpos := two_pos h0 h1
  obtain ⟨hd, ⟨L', intra, inter, hb, hlist⟩, -⟩ :=
    hall id (fun l => List.Perm.refl l) (fun _ => id) (fun _ l => List.Perm.refl l) [] true
  simp only [List.foldl_nil] at hd hb
  obtain ⟨hi, P, s, H, g1, g2, g3, g4, g5, g6, -⟩ :=
    C51_bonds_exact id (fun l => List.Perm.refl l) (fun _ => id) (fun _ l => List.Perm.refl l) hb
  have g1' := Except.ok.inj (g1.symm.trans hd)
  subst g1'
  rw [k2] at g4 g6 hlist
  -- the scope is at most one
  have mem1 : ∀ u ∈ triangleCell.points, u = ![0, 0] := by
    intro u hu; simpa [triangleCell] using hu
  have scaled : ∀ (u u' : Pt 2) (r r' c : Fin 2 → ℤ),
      ndist (u + comb triangleCell.vectors r + comb (scaleVectors ![n0, n1] triangleCell.vectors) c)
        (u' + comb triangleCell.vectors r') =
        ndist (u + comb triangleCell.vectors (r + (fun i => ![n0, n1] i * c i) - r')) u' := by
    intro u u' r r' c
    rw [comb_scale, ndist_eq, ndist_eq, comb_sub, comb_add]
    congr 1; abel
  have hs : s ≤ 1 := by
    by_contra hc
    obtain ⟨c, ⟨-, q, hq⟩, i, j, hle⟩ := g4.first 1 (by norm_num) (by omega)
    obtain ⟨u, hu, r, hr1, e1⟩ := hcell i
    obtain ⟨u', hu', r', hr2, e2⟩ := hcell j
    rw [e1, e2, scaled, mem1 u hu, mem1 u' hu'] at hle
    set a := r + (fun i => ![n0, n1] i * c i) - r' with ha
    have hbig : 2 ≤ |a q| := by
      have b1 := hr1 q
      have b2 := hr2 q
      have b3 := hpos q
      have e : a q = r q + ![n0, n1] q * c q - r' q := rfl
      rw [e]
      have hq' : c q = 2 ∨ c q = -2 := by
        have : |c q| = 2 := by omega
        exact (abs_eq (by norm_num)).1 this
      rcases hq' with h | h
      · rw [h, le_abs]; left; omega
      · rw [h, le_abs]; right; omega
    have hsq := triangle_sq a
    have h3 : (3 : ℝ) ≤ ndist (![0, 0] + comb triangleCell.vectors a) ![0, 0] ^ 2 := by
      rw [hsq, mul_one]
      have hbig' : 4 ≤ a q ^ 2 := by rw [← sq_abs]; nlinarith
      have : (3 : ℤ) ≤ a 0 ^ 2 + a 0 * a 1 + a 1 ^ 2 := by
        fin_cases q
        · change 4 ≤ a 0 ^ 2 at hbig'
          nlinarith [sq_nonneg (a 0 + 2 * a 1)]
        · change 4 ≤ a 1 ^ 2 at hbig'
          nlinarith [sq_nonneg (2 * a 0 + a 1)]
      exact_mod_cast this
    have h4 := three_sq
    have h5 := ndist_nn (![0, 0] + comb triangleCell.vectors a) ![0, 0]
    have h6 := Real.sqrt_nonneg 3
    nlinarith
  -- the bonds listed
  have hlisted : ∀ b ∈ intra ++ inter, ∃ i j, ∃ c : Fin 2 → ℤ, (∀ q, |c q| ≤ 1) ∧ b.1 = L2.points i ∧
      b.2 = L2.points j + comb (scaleVectors ![n0, n1] triangleCell.vectors) c := by
    intro b hb
    rw [List.mem_append] at hb
    rcases hb with hb | hb
    · obtain ⟨⟨i, hi⟩, ⟨j, hj⟩, -⟩ := hlist.inside b hb
      exact ⟨i, j, 0, by simp, hi, by rw [comb_zero, add_zero, hj]⟩
    · have hb' := g6.mem_iff.1 hb
      unfold interBonds at hb'
      rw [List.mem_map] at hb'
      obtain ⟨⟨c, i, j⟩, hm, rfl⟩ := hb'
      have hm' := (List.mem_filter.1 hm).1
      have hc : c ∈ H := (List.pair_mem_product.1 hm').1
      exact ⟨i, j, c, fun q => ((g3.inBox c hc).2 q).trans hs, rfl, rfl⟩
  -- the missed bond
  have missed : ∀ w : Fin 2 → ℤ, w 0 ^ 2 + w 0 * w 1 + w 1 ^ 2 = 3 →
      (∃ q, ![n0, n1] q = 1 ∧ |w q| = 2) → False := by
    intro w hw ⟨q, hq, hwq⟩
    have t1 : (![0, 0] : Pt 2) + comb triangleCell.vectors w ∈ triangleSites :=
      tiling_triangle.inside ![0, 0] (by simp [triangleCell]) w
    have t2 : (![0, 0] : Pt 2) ∈ triangleSites := by
      have := tiling_triangle.inside ![0, 0] (by simp [triangleCell]) 0
      rwa [comb_zero, add_zero] at this
    have hdist : ndist (![0, 0] + comb triangleCell.vectors w) (![0, 0] : Pt 2) = Real.sqrt 3 :=
      ndist_of_sq (Real.sqrt_nonneg _) (by rw [triangle_sq, hw]; norm_num)
    obtain ⟨b, ⟨hb1, c, hc⟩, -⟩ := hlist.each _ t1 _ t2 (by simpa [ShellLength] using hdist)
    obtain ⟨i, j, c', hc', hi, hj⟩ := hlisted b hb1
    obtain ⟨u, hu, r, hr1, e1⟩ := hcell i
    obtain ⟨u', hu', r', hr2, e2⟩ := hcell j
    rw [mem1 u hu] at e1
    rw [mem1 u' hu'] at e2
    have hdiff : ∃ ε : ℤ, (ε = 1 ∨ ε = -1) ∧ (![0, 0] : Pt 2) + comb triangleCell.vectors
        (r + fun x => ε * w x) = ![0, 0] + comb triangleCell.vectors (r' + fun x => ![n0, n1] x * c' x) := by
      have eb : b.2 = ![0, 0] + comb triangleCell.vectors (r' + fun x => ![n0, n1] x * c' x) := by
        rw [hj, e2, comb_scale, comb_add, add_assoc]
      have hneg : ∀ w : Fin 2 → ℤ, comb triangleCell.vectors (fun x => -1 * w x) =
          - comb triangleCell.vectors w := by
        intro w
        have : (fun x => -1 * w x) = 0 - w := by funext x; simp
        rw [this, comb_sub, comb_zero, zero_sub]
      have hone : (fun x => 1 * w x) = w := by funext x; simp
      rcases hc with ⟨c1, c2⟩ | ⟨c1, c2⟩ <;> dsimp only at c1 c2
      · refine ⟨-1, Or.inr rfl, ?_⟩
        rw [← eb, comb_add, hneg, ← add_assoc, ← e1, ← hi]
        have c2' : comb (scaleVectors ![n0, n1] triangleCell.vectors) c = ![0, 0] - b.2 :=
          eq_sub_of_add_eq' c2
        have c1' := c1
        rw [c2'] at c1'
        have : comb triangleCell.vectors w = b.1 - b.2 := by
          have h := congrArg (fun p => p - (![0, 0] : Pt 2)) c1'
          simp only [add_sub_cancel_left] at h
          rw [← h]; abel
        rw [this]; abel
      · refine ⟨1, Or.inl rfl, ?_⟩
        rw [← eb, comb_add, hone, ← add_assoc, ← e1, ← hi]
        have c1' : comb (scaleVectors ![n0, n1] triangleCell.vectors) c = ![0, 0] - b.1 :=
          eq_sub_of_add_eq' c1
        rw [c1'] at c2
        have : comb triangleCell.vectors w = b.2 - b.1 := by
          have h := congrArg (fun p => p - (![0, 0] : Pt 2)) c2
          simp only [add_sub_cancel_left] at h
          rw [← h]; abel
        rw [this]; abel
    obtain ⟨ε, hε, he⟩ := hdiff
    obtain ⟨-, he'⟩ := tiling_triangle.uniq _ (by simp [triangleCell]) _ (by simp [triangleCell]) _ _ he
    have := congrFun he' q
    simp only [Pi.add_apply, hq] at this
    have b1 := hr1 q
    have b2 := hr2 q
    have b3 := abs_le.1 (hc' q)
    rw [hq] at b1 b2
    have hwq' := (abs_eq (by norm_num)).1 hwq
    rcases hε with rfl | rfl <;> rcases hwq' with h | h <;> rw [h] at this <;> omega
  rcases hn with h | h
  · exact missed ![2, -1] (by norm_num) ⟨0, h, by norm_num⟩
  · exact missed ![-1, 2] (by norm_num) ⟨1, h, by norm_num⟩

end Verif.LDB
