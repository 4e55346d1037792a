import Verif.Proofs.LatticeDatabase
/-!
Helper lemmas: the unit cells tile their lattices.
-/

namespace Verif.LDB

open Verif.Latt

theorem r3_sq : r3 * r3 = 3 := Real.mul_self_sqrt (by norm_num)
theorem r3_pos : 0 < r3 := Real.sqrt_pos.2 (by norm_num)
theorem inv_r3 : r3⁻¹ = r3 / 3 := by
  have := r3_pos.ne'
  rw [inv_eq_one_div, div_eq_div_iff this (by norm_num), r3_sq]; norm_num

theorem comb_two' (v : Fin 2 → Pt 2) (c : Fin 2 → ℤ) (a : Fin 2) :
    comb v c a = (c 0 : ℝ) * v 0 a + (c 1 : ℝ) * v 1 a := by
  rw [comb, Fin.sum_univ_two]

theorem pt2_ext {p q : Pt 2} (h0 : p 0 = q 0) (h1 : p 1 = q 1) : p = q := by
  funext a; fin_cases a
  · exact h0
  · exact h1

theorem int2_ext {p q : Fin 2 → ℤ} (h0 : p 0 = q 0) (h1 : p 1 = q 1) : p = q := by
  funext a; fin_cases a
  · exact h0
  · exact h1

/-- A grid that contains all the two-dimensional lattices built on hexagons. -/
def grid3 : Set (Pt 2) := {s | ∃ x y : ℤ, s = ![(x : ℝ) / 4, (y : ℝ) * (Real.sqrt 3 / 12)]}

theorem separated_grid3 {S : Set (Pt 2)} (h : S ⊆ grid3) : Separated (1 / 10) S := by
  intro s hs t ht hne
  obtain ⟨x, y, rfl⟩ := h hs
  obtain ⟨x', y', rfl⟩ := h ht
  refine le_ndist_two ?_
  have h3 : Real.sqrt 3 * Real.sqrt 3 = 3 := Real.mul_self_sqrt (by norm_num)
  have key : (1 : ℝ) ≤ (x - x') ^ 2 ∨ (1 : ℝ) ≤ (y - y') ^ 2 := by
    by_cases hx : x = x'
    · right
      have hy : y ≠ y' := by rintro rfl; exact hne (by rw [hx])
      have : (0 : ℤ) < (y - y') ^ 2 := by
        have : y - y' ≠ 0 := sub_ne_zero.2 hy
        positivity
      have : (1 : ℤ) ≤ (y - y') ^ 2 := this
      exact_mod_cast this
    · left
      have : (0 : ℤ) < (x - x') ^ 2 := by
        have : x - x' ≠ 0 := sub_ne_zero.2 hx
        positivity
      have : (1 : ℤ) ≤ (x - x') ^ 2 := this
      exact_mod_cast this
  have e1 : ((![(x : ℝ) / 4, (y : ℝ) * (Real.sqrt 3 / 12)] : Pt 2) 0 -
      (![(x' : ℝ) / 4, (y' : ℝ) * (Real.sqrt 3 / 12)] : Pt 2) 0) ^ 2 = (x - x') ^ 2 / 16 := by
    simp; ring
  have e2 : ((![(x : ℝ) / 4, (y : ℝ) * (Real.sqrt 3 / 12)] : Pt 2) 1 -
      (![(x' : ℝ) / 4, (y' : ℝ) * (Real.sqrt 3 / 12)] : Pt 2) 1) ^ 2 =
      (y - y') ^ 2 * 3 / 144 := by
    rw [Matrix.cons_val_one, Matrix.cons_val_one, Matrix.cons_val_fin_one,
      Matrix.cons_val_fin_one]
    linear_combination ((y - y') ^ 2 / 144 : ℝ) * h3
  rw [e1, e2]
  rcases key with h | h
  · nlinarith [sq_nonneg ((y : ℝ) - y')]
  · nlinarith [sq_nonneg ((x : ℝ) - x')]

theorem separated_int {m : ℕ} {S : Set (Pt m)} (h : ∀ s ∈ S, ∃ z : Fin m → ℤ, s = fun a => (z a : ℝ)) :
    Separated (1 / 10) S := by
  intro s hs t ht hne
  obtain ⟨x, rfl⟩ := h s hs
  obtain ⟨y, rfl⟩ := h t ht
  obtain ⟨a, ha⟩ : ∃ a, x a ≠ y a := by
    by_contra hc
    push Not at hc
    exact hne (funext fun a => by rw [hc a])
  refine Real.le_sqrt_of_sq_le ?_
  have h1 : (1 : ℝ) ≤ ((x a : ℝ) - y a) ^ 2 := by
    have : (0 : ℤ) < (x a - y a) ^ 2 := by
      have : x a - y a ≠ 0 := sub_ne_zero.2 ha
      positivity
    have : (1 : ℤ) ≤ (x a - y a) ^ 2 := this
    exact_mod_cast this
  have h2 := Finset.single_le_sum (f := fun a => ((x a : ℝ) - y a) ^ 2)
    (fun i _ => sq_nonneg _) (Finset.mem_univ a)
  have h3 : ((x a : ℝ) - y a) ^ 2 ≤ ∑ a, ((x a : ℝ) - y a) ^ 2 := h2
  norm_num at h3 ⊢
  linarith

theorem separated_chain : Separated (1 / 10) chainSites := separated_int (by
  rintro s ⟨a, rfl⟩; exact ⟨![a], by funext i; fin_cases i; simp⟩)
theorem separated_square : Separated (1 / 10) squareSites := separated_int (by
  rintro s ⟨a, b, rfl⟩; exact ⟨![a, b], by funext i; fin_cases i <;> simp⟩)
theorem separated_cubic : Separated (1 / 10) cubicSites := separated_int (by
  rintro s ⟨a, b, c, rfl⟩; exact ⟨![a, b, c], by funext i; fin_cases i <;> simp⟩)

theorem separated_triangle : Separated (1 / 10) triangleSites := separated_grid3 (by
  rintro s ⟨a, b, rfl⟩
  refine ⟨4 * a + 2 * b, 6 * b, pt2_ext ?_ ?_⟩ <;> (simp; ring))

theorem honeycomb_iff (s : Pt 2) : s ∈ honeycombSites ↔ ∃ a b e : ℤ, (e = -1 ∨ e = 1) ∧
    s 0 = a + b / 2 ∧ s 1 = b * (r3 / 2) + e * (r3 / 6) := by
  have h2 : 1 / (2 * Real.sqrt 3) = r3 / 6 := by
    change 1 / (2 * r3) = r3 / 6
    rw [one_div, mul_inv, inv_r3]; ring
  constructor
  · rintro ⟨t, ⟨a, b, rfl⟩, rfl | rfl⟩
    · refine ⟨a, b, -1, Or.inl rfl, by simp, ?_⟩
      rw [h2]; simp [r3]; ring
    · refine ⟨a, b, 1, Or.inr rfl, by simp, ?_⟩
      rw [h2]; simp [r3]
  · rintro ⟨a, b, e, he, h0, h1⟩
    refine ⟨_, ⟨a, b, rfl⟩, ?_⟩
    rw [h2]
    rcases he with rfl | rfl
    · left
      refine pt2_ext (by rw [h0]; simp) ?_
      rw [h1]; simp [r3]; ring
    · right
      refine pt2_ext (by rw [h0]; simp) ?_
      rw [h1]; simp [r3]

theorem separated_honeycomb : Separated (1 / 10) honeycombSites := separated_grid3 (by
  intro s hs
  obtain ⟨a, b, e, _, h0, h1⟩ := (honeycomb_iff s).1 hs
  refine ⟨4 * a + 2 * b, 6 * b + 2 * e, pt2_ext ?_ ?_⟩
  · rw [h0]; simp; ring
  · rw [h1]; simp [r3]; ring)

theorem separated_kagome : Separated (1 / 10) kagomeSites := separated_grid3 (by
  rintro s ⟨a, b, _, rfl⟩
  refine ⟨2 * a + b, 3 * b, pt2_ext ?_ ?_⟩ <;> (simp; ring))

/-! ### The cells -/

theorem tiling_chain : LTiling chainSites chainCell.points chainCell.vectors := by
  refine ⟨?_, List.nodup_singleton _, ?_, ?_⟩
  · intro p hp c
    simp only [chainCell, List.mem_singleton] at hp
    subst hp
    refine ⟨c 0, ?_⟩
    funext a; fin_cases a; simp [comb, chainCell]
  · rintro s ⟨a, rfl⟩
    refine ⟨_, List.mem_singleton.2 rfl, ![a], ?_⟩
    funext i; fin_cases i; simp [comb, chainCell]
  · intro p hp p' hp' c c' he
    simp only [chainCell, List.mem_singleton] at hp hp'
    subst hp; subst hp'
    refine ⟨rfl, ?_⟩
    have := congrFun he 0
    simp [comb, chainCell] at this
    funext i; fin_cases i; exact this.symm

theorem tiling_square : LTiling squareSites squareCell.points squareCell.vectors := by
  refine ⟨?_, List.nodup_singleton _, ?_, ?_⟩
  · intro p hp c
    simp only [squareCell, List.mem_singleton] at hp
    subst hp
    refine ⟨c 0, c 1, ?_⟩
    refine pt2_ext ?_ ?_ <;> simp [comb_two', squareCell]
  · rintro s ⟨a, b, rfl⟩
    refine ⟨_, List.mem_singleton.2 rfl, ![a, b], ?_⟩
    refine pt2_ext ?_ ?_ <;> simp [comb_two', squareCell]
  · intro p hp p' hp' c c' he
    simp only [squareCell, List.mem_singleton] at hp hp'
    subst hp; subst hp'
    refine ⟨rfl, ?_⟩
    have h0 := congrFun he 0
    have h1 := congrFun he 1
    simp [comb_two', squareCell] at h0 h1
    exact int2_ext h0.symm h1.symm

theorem tiling_cubic : LTiling cubicSites cubicCell.points cubicCell.vectors := by
  refine ⟨?_, List.nodup_singleton _, ?_, ?_⟩
  · intro p hp c
    simp only [cubicCell, List.mem_singleton] at hp
    subst hp
    refine ⟨c 0, c 1, c 2, ?_⟩
    funext i
    fin_cases i <;> simp [comb, Fin.sum_univ_three, cubicCell]
  · rintro s ⟨a, b, c, rfl⟩
    refine ⟨_, List.mem_singleton.2 rfl, ![a, b, c], ?_⟩
    funext i
    fin_cases i <;> simp [comb, Fin.sum_univ_three, cubicCell]
  · intro p hp p' hp' c c' he
    simp only [cubicCell, List.mem_singleton] at hp hp'
    subst hp; subst hp'
    refine ⟨rfl, ?_⟩
    have h0 := congrFun he 0
    have h1 := congrFun he 1
    have h2 := congrFun he 2
    simp [comb, Fin.sum_univ_three, cubicCell] at h0 h1 h2
    funext i
    fin_cases i
    · exact h0.symm
    · exact h1.symm
    · exact h2.symm

theorem triBasis_0 (c : Fin 2 → ℤ) : comb triangleCell.vectors c 0 = (c 0 : ℝ) + c 1 / 2 := by
  rw [show comb triangleCell.vectors c 0 = _ from comb_two' _ c 0]
  simp [triangleCell]; ring
theorem triBasis_1 (c : Fin 2 → ℤ) : comb triangleCell.vectors c 1 = (c 1 : ℝ) * (r3 / 2) := by
  rw [show comb triangleCell.vectors c 1 = _ from comb_two' _ c 1]
  simp [triangleCell]

theorem tiling_triangle : LTiling triangleSites triangleCell.points triangleCell.vectors := by
  refine ⟨?_, List.nodup_singleton _, ?_, ?_⟩
  · intro p hp c
    simp only [triangleCell, List.mem_singleton] at hp
    subst hp
    refine ⟨c 0, c 1, pt2_ext ?_ ?_⟩
    · rw [Pi.add_apply, triBasis_0]; simp
    · rw [Pi.add_apply, triBasis_1]; simp [r3]
  · rintro s ⟨a, b, rfl⟩
    refine ⟨_, List.mem_singleton.2 rfl, ![a, b], pt2_ext ?_ ?_⟩
    · rw [Pi.add_apply, triBasis_0]; simp
    · rw [Pi.add_apply, triBasis_1]; simp [r3]
  · intro p hp p' hp' c c' he
    simp only [triangleCell, List.mem_singleton] at hp hp'
    subst hp; subst hp'
    refine ⟨rfl, ?_⟩
    have h0 := congrFun he 0
    have h1 := congrFun he 1
    rw [Pi.add_apply, Pi.add_apply, triBasis_0, triBasis_0] at h0
    rw [Pi.add_apply, Pi.add_apply, triBasis_1, triBasis_1] at h1
    have h2 : (c 1 : ℝ) = c' 1 := by
      have := add_left_cancel h1
      exact mul_right_cancel₀ (by have := r3_pos; positivity) this
    have h3 := add_left_cancel h0
    rw [h2] at h3
    have h4 : (c 0 : ℝ) = c' 0 := by linarith
    exact int2_ext (by exact_mod_cast h4.symm) (by exact_mod_cast h2.symm)

/-- Equality of two points whose second coordinates are rational multiples of √3. -/
theorem r3_cancel {x y : ℝ} (h : x * r3 = y * r3) : x = y := mul_right_cancel₀ r3_pos.ne' h

theorem tiling_honeycomb : LTiling honeycombSites honeycombCell.points honeycombCell.vectors := by
  have hv : honeycombCell.vectors = triangleCell.vectors := rfl
  have hmem : ∀ p, p ∈ honeycombCell.points ↔ ∃ e : ℤ, (e = -1 ∨ e = 1) ∧ p = ![0, e * (r3 / 6)] := by
    intro p
    have e1 : -(1 / 2) / r3 = ((-1 : ℤ) : ℝ) * (r3 / 6) := by
      rw [div_eq_mul_inv, inv_r3]; push_cast; ring
    have e2 : 1 / 2 / r3 = ((1 : ℤ) : ℝ) * (r3 / 6) := by
      rw [div_eq_mul_inv, inv_r3]; push_cast; ring
    simp only [honeycombCell, List.mem_cons, List.not_mem_nil, or_false, e1, e2]
    constructor
    · rintro (rfl | rfl)
      · exact ⟨-1, Or.inl rfl, rfl⟩
      · exact ⟨1, Or.inr rfl, rfl⟩
    · rintro ⟨e, rfl | rfl, rfl⟩
      · exact Or.inl rfl
      · exact Or.inr rfl
  have huniq : ∀ p ∈ honeycombCell.points, ∀ p' ∈ honeycombCell.points, ∀ c c',
      p + comb honeycombCell.vectors c = p' + comb honeycombCell.vectors c' → p' = p ∧ c' = c := by
    intro p hp p' hp' c c' he
    obtain ⟨e, h1, rfl⟩ := (hmem p).1 hp
    obtain ⟨e', h2, rfl⟩ := (hmem p').1 hp'
    have g0 := congrFun he 0
    have g1 := congrFun he 1
    rw [hv] at g0 g1
    rw [Pi.add_apply, Pi.add_apply, triBasis_0, triBasis_0] at g0
    rw [Pi.add_apply, Pi.add_apply, triBasis_1, triBasis_1] at g1
    simp at g0 g1
    have g2 : (e : ℝ) + 3 * c 1 = e' + 3 * c' 1 := by
      refine r3_cancel ?_
      linear_combination 6 * g1
    have g3 : e + 3 * c 1 = e' + 3 * c' 1 := by exact_mod_cast g2
    have g4 : e = e' := by omega
    have g5 : c 1 = c' 1 := by omega
    rw [g5] at g0
    have g6 : (c 0 : ℝ) = c' 0 := by linarith
    exact ⟨by rw [g4], int2_ext (by exact_mod_cast g6.symm) g5.symm⟩
  refine ⟨?_, ?_, ?_, huniq⟩
  · intro p hp c
    obtain ⟨e, h1, rfl⟩ := (hmem p).1 hp
    rw [honeycomb_iff]
    refine ⟨c 0, c 1, e, h1, ?_, ?_⟩
    · rw [hv, Pi.add_apply, triBasis_0]; simp
    · rw [hv, Pi.add_apply, triBasis_1]; simp; ring
  · change [![0, -(1 / 2) / r3], ![0, 1 / 2 / r3]].Nodup
    simp only [List.nodup_cons, List.mem_singleton, List.not_mem_nil, not_false_eq_true,
      List.nodup_nil, and_true]
    intro h
    have := congrFun h 1
    simp [div_eq_mul_inv] at this
    have hp := inv_pos.2 r3_pos
    linarith
  · intro s hs
    obtain ⟨a, b, e, h1, h2, h3⟩ := (honeycomb_iff s).1 hs
    refine ⟨![0, e * (r3 / 6)], (hmem _).2 ⟨e, h1, rfl⟩, ![a, b], pt2_ext ?_ ?_⟩
    · rw [hv, Pi.add_apply, triBasis_0, h2]; simp
    · rw [hv, Pi.add_apply, triBasis_1, h3]; simp; ring

theorem tiling_kagome : LTiling kagomeSites kagomeCell.points kagomeCell.vectors := by
  have hv : kagomeCell.vectors = triangleCell.vectors := rfl
  have hmem : ∀ p, p ∈ kagomeCell.points ↔ ∃ x y : ℤ, (x = 0 ∧ y = 0 ∨ x = 0 ∧ y = 1 ∨ x = 1 ∧ y = 0) ∧
      p = ![((x : ℝ) + y / 2) / 2, y * (r3 / 4)] := by
    intro p
    simp only [kagomeCell, List.mem_cons, List.not_mem_nil, or_false]
    constructor
    · rintro (rfl | rfl | rfl)
      · exact ⟨0, 0, by simp, by simp⟩
      · exact ⟨0, 1, by simp, by simp; norm_num⟩
      · exact ⟨1, 0, by simp, by simp⟩
    · rintro ⟨x, y, (⟨rfl, rfl⟩ | ⟨rfl, rfl⟩ | ⟨rfl, rfl⟩), rfl⟩
      · left; simp
      · right; left; simp; norm_num
      · right; right; simp
  have huniq : ∀ p ∈ kagomeCell.points, ∀ p' ∈ kagomeCell.points, ∀ c c',
      p + comb kagomeCell.vectors c = p' + comb kagomeCell.vectors c' → p' = p ∧ c' = c := by
    intro p hp p' hp' c c' he
    obtain ⟨x, y, h1, rfl⟩ := (hmem p).1 hp
    obtain ⟨x', y', h2, rfl⟩ := (hmem p').1 hp'
    have g0 := congrFun he 0
    have g1 := congrFun he 1
    rw [hv] at g0 g1
    rw [Pi.add_apply, Pi.add_apply, triBasis_0, triBasis_0] at g0
    rw [Pi.add_apply, Pi.add_apply, triBasis_1, triBasis_1] at g1
    simp at g0 g1
    have g2 : (y : ℝ) + 2 * c 1 = y' + 2 * c' 1 := by
      refine r3_cancel ?_
      linear_combination 4 * g1
    have g3 : y + 2 * c 1 = y' + 2 * c' 1 := by exact_mod_cast g2
    have g4 : (x : ℝ) + 2 * c 0 = x' + 2 * c' 0 := by linarith
    have g5 : x + 2 * c 0 = x' + 2 * c' 0 := by exact_mod_cast g4
    have g6 : x = x' ∧ y = y' := by omega
    exact ⟨by rw [g6.1, g6.2], int2_ext (by omega) (by omega)⟩
  refine ⟨?_, ?_, ?_, huniq⟩
  · intro p hp c
    obtain ⟨x, y, h1, rfl⟩ := (hmem p).1 hp
    refine ⟨x + 2 * c 0, y + 2 * c 1, ?_, pt2_ext ?_ ?_⟩
    · rintro ⟨⟨a, ha⟩, ⟨b, hb⟩⟩; omega
    · rw [hv, Pi.add_apply, triBasis_0]; simp; ring
    · rw [hv, Pi.add_apply, triBasis_1]; simp [r3]; ring
  · change [![0, 0], ![1 / 4, r3 / 4], ![1 / 2, 0]].Nodup
    simp only [List.nodup_cons, List.mem_cons, List.not_mem_nil, not_false_eq_true,
      List.nodup_nil, and_true, or_false, not_or]
    refine ⟨⟨?_, ?_⟩, ?_⟩ <;>
      · intro h
        have := congrFun h 0
        norm_num at this
  · rintro s ⟨a, b, hab, rfl⟩
    have hab' : ¬(a % 2 = 1 ∧ b % 2 = 1) := fun h => hab ⟨Int.odd_iff.2 h.1, Int.odd_iff.2 h.2⟩
    refine ⟨_, (hmem _).2 ⟨a % 2, b % 2, by omega, rfl⟩, ![a / 2, b / 2], pt2_ext ?_ ?_⟩
    · rw [hv, Pi.add_apply, triBasis_0]
      have e1 : (a : ℝ) = (a % 2 : ℤ) + 2 * (a / 2 : ℤ) := by
        exact_mod_cast (Int.emod_add_mul_ediv a 2).symm
      have e2 : (b : ℝ) = (b % 2 : ℤ) + 2 * (b / 2 : ℤ) := by
        exact_mod_cast (Int.emod_add_mul_ediv b 2).symm
      simp only [Matrix.cons_val_zero, Matrix.cons_val_one]
      rw [e1, e2]; ring
    · rw [hv, Pi.add_apply, triBasis_1]
      have e2 : (b : ℝ) = (b % 2 : ℤ) + 2 * (b / 2 : ℤ) := by
        exact_mod_cast (Int.emod_add_mul_ediv b 2).symm
      simp only [Matrix.cons_val_zero, Matrix.cons_val_one]
      rw [e2, show Real.sqrt 3 = r3 from rfl]; ring

/-! ### Linear independence -/

theorem li_two {v : Fin 2 → Pt 2} (h : v 0 0 * v 1 1 - v 0 1 * v 1 0 ≠ 0) : LinearIndependent ℝ v := by
  rw [Fintype.linearIndependent_iff]
  intro g hg
  rw [Fin.sum_univ_two] at hg
  have h0 := congrFun hg 0
  have h1 := congrFun hg 1
  simp at h0 h1
  have e0 : g 0 * (v 0 0 * v 1 1 - v 0 1 * v 1 0) = 0 := by linear_combination v 1 1 * h0 - v 1 0 * h1
  have e1 : g 1 * (v 0 0 * v 1 1 - v 0 1 * v 1 0) = 0 := by linear_combination v 0 0 * h1 - v 0 1 * h0
  intro i
  fin_cases i
  · exact (mul_eq_zero.1 e0).resolve_right h
  · exact (mul_eq_zero.1 e1).resolve_right h

theorem li_chain : LinearIndependent ℝ chainCell.vectors := by
  rw [Fintype.linearIndependent_iff]
  intro g hg i
  have := congrFun hg 0
  simp [chainCell] at this
  fin_cases i; exact this

theorem li_cubic : LinearIndependent ℝ cubicCell.vectors := by
  rw [Fintype.linearIndependent_iff]
  intro g hg i
  have h0 := congrFun hg 0
  have h1 := congrFun hg 1
  have h2 := congrFun hg 2
  simp [cubicCell, Fin.sum_univ_three] at h0 h1 h2
  fin_cases i
  · exact h0
  · exact h1
  · exact h2

theorem li_square : LinearIndependent ℝ squareCell.vectors :=
  li_two (v := squareCell.vectors) (by simp [squareCell])
theorem li_triangle : LinearIndependent ℝ triangleCell.vectors :=
  li_two (v := triangleCell.vectors) (by simp [triangleCell, r3_pos.ne'])

end Verif.LDB
