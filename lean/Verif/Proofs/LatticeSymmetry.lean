import Verif.Proofs.LatticeBuilt
import Mathlib.Tactic.IntervalCases
/-!
Helper lemmas: Brillouin zones of square and hexagonal lattices.
-/

namespace Verif.LDB

open Verif.Latt

/-- Scalar product. -/
def dot {m : ℕ} (p q : Pt m) : ℝ := ∑ a, p a * q a

theorem ndist_sq_comb {m k : ℕ} (B : Fin k → Pt m) (p : Pt m) (c : Fin k → ℤ) :
    ndist p (comb B c) ^ 2 = nnorm p ^ 2 - 2 * ∑ i, (c i : ℝ) * dot p (B i) +
      ∑ i, (c i : ℝ) * ∑ j, gram B i j * c j := by
  rw [ndist_eq, nnorm_sq, nnorm_sq, ← sum_comb_mul B c c]
  have h1 : ∑ i, (c i : ℝ) * dot p (B i) = ∑ a, p a * comb B c a := by
    simp only [dot, comb, Finset.mul_sum]
    rw [Finset.sum_comm]
    exact Finset.sum_congr rfl fun a _ => Finset.sum_congr rfl fun i _ => by ring
  rw [h1, Finset.mul_sum, ← Finset.sum_sub_distrib, ← Finset.sum_add_distrib]
  refine Finset.sum_congr rfl fun a _ => ?_
  rw [Pi.sub_apply]; ring

theorem cmp_of_sq {x y d : ℝ} (hx : 0 ≤ x) (hy : 0 ≤ y) (h : y ^ 2 = x ^ 2 + d) :
    (x ≤ y ↔ 0 ≤ d) ∧ (y = x ↔ d = 0) ∧ (x < y ↔ 0 < d) := by
  have h1 : x ≤ y ↔ x ^ 2 ≤ y ^ 2 := (sq_le_sq₀ hx hy).symm
  have h2 : y ≤ x ↔ y ^ 2 ≤ x ^ 2 := (sq_le_sq₀ hy hx).symm
  refine ⟨by rw [h1, h]; constructor <;> intro <;> linarith, ?_, ?_⟩
  · constructor
    · rintro rfl; linarith
    · intro h0; exact le_antisymm (h2.2 (by linarith)) (h1.2 (by linarith))
  · rw [← not_le, h2, h]; constructor
    · intro g; push Not at g; linarith
    · intro g; push Not; linarith

/-! ### The arithmetic of the two zones -/

/-- The form of the hexagonal lattice. -/
def qh (g h : ℤ) : ℤ := g ^ 2 - g * h + h ^ 2
/-- The form of the square lattice. -/
def qs (g h : ℤ) : ℤ := g ^ 2 + h ^ 2

theorem small_of_sq {g h : ℤ} (hb : (|g| - 1) ^ 2 + (|h| - 1) ^ 2 ≤ 2) :
    -2 ≤ g ∧ g ≤ 2 ∧ -2 ≤ h ∧ h ≤ 2 := by
  have h1 : |g| - 1 ≤ 1 := by nlinarith [sq_nonneg (|h| - 1)]
  have h2 : |h| - 1 ≤ 1 := by nlinarith [sq_nonneg (|g| - 1)]
  have h3 := abs_le.1 (show |g| ≤ 2 by omega)
  have h4 := abs_le.1 (show |h| ≤ 2 by omega)
  omega

theorem lin_le_abs {s t : ℝ} (hs : |s| ≤ 1) (ht : |t| ≤ 1) (g h : ℤ) :
    s * g + t * h ≤ ((|g| + |h| : ℤ) : ℝ) := by
  have h1 : s * g ≤ |(g : ℝ)| := by
    calc s * g ≤ |s * g| := le_abs_self _
      _ = |s| * |(g : ℝ)| := abs_mul _ _
      _ ≤ 1 * |(g : ℝ)| := by gcongr
      _ = _ := one_mul _
  have h2 : t * h ≤ |(h : ℝ)| := by
    calc t * h ≤ |t * h| := le_abs_self _
      _ = |t| * |(h : ℝ)| := abs_mul _ _
      _ ≤ 1 * |(h : ℝ)| := by gcongr
      _ = _ := one_mul _
  push_cast
  linarith

theorem hex_zone {s t : ℝ} : (∀ g h : ℤ, s * g + t * h ≤ qh g h) ↔ |s| ≤ 1 ∧ |t| ≤ 1 ∧ |s + t| ≤ 1 := by
  constructor
  · intro H
    have a1 := H 1 0
    have a2 := H (-1) 0
    have a3 := H 0 1
    have a4 := H 0 (-1)
    have a5 := H 1 1
    have a6 := H (-1) (-1)
    simp [qh] at a1 a2 a3 a4 a5 a6
    refine ⟨abs_le.2 ⟨?_, ?_⟩, abs_le.2 ⟨?_, ?_⟩, abs_le.2 ⟨?_, ?_⟩⟩ <;> linarith
  · rintro ⟨hs, ht, hst⟩ g h
    by_cases hb : (|g| - 1) ^ 2 + (|h| - 1) ^ 2 ≤ 2
    · obtain ⟨b1, b2, b3, b4⟩ := small_of_sq hb
      obtain ⟨s1, s2⟩ := abs_le.1 hs
      obtain ⟨t1, t2⟩ := abs_le.1 ht
      obtain ⟨r1, r2⟩ := abs_le.1 hst
      interval_cases g <;> interval_cases h <;> simp [qh] <;> linarith
    · refine (lin_le_abs hs ht g h).trans ?_
      have : |g| + |h| ≤ qh g h := by
        unfold qh
        nlinarith [sq_abs g, sq_abs h, sq_nonneg (g - h)]
      exact_mod_cast this

theorem hex_tie {s t : ℝ} (hs : |s| ≤ 1) (ht : |t| ≤ 1) (hst : |s + t| ≤ 1) {g h : ℤ}
    (he : s * g + t * h = qh g h) : -1 ≤ g ∧ g ≤ 1 ∧ -1 ≤ h ∧ h ≤ 1 ∧ g * h ≠ -1 := by
  by_cases hb : (|g| - 1) ^ 2 + (|h| - 1) ^ 2 ≤ 2
  · obtain ⟨b1, b2, b3, b4⟩ := small_of_sq hb
    obtain ⟨s1, s2⟩ := abs_le.1 hs
    obtain ⟨t1, t2⟩ := abs_le.1 ht
    obtain ⟨r1, r2⟩ := abs_le.1 hst
    interval_cases g <;> interval_cases h <;>
      first
        | exact ⟨by decide, by decide, by decide, by decide, by decide⟩
        | (exfalso; simp [qh] at he; linarith)
  · exfalso
    have h1 := lin_le_abs hs ht g h
    rw [he] at h1
    have h2 : qh g h ≤ |g| + |h| := by exact_mod_cast h1
    unfold qh at h2
    nlinarith [sq_abs g, sq_abs h, sq_nonneg (g - h)]

theorem square_zone {s t : ℝ} : (∀ g h : ℤ, s * g + t * h ≤ qs g h) ↔ |s| ≤ 1 ∧ |t| ≤ 1 := by
  constructor
  · intro H
    have a1 := H 1 0
    have a2 := H (-1) 0
    have a3 := H 0 1
    have a4 := H 0 (-1)
    simp [qs] at a1 a2 a3 a4
    refine ⟨abs_le.2 ⟨?_, ?_⟩, abs_le.2 ⟨?_, ?_⟩⟩ <;> linarith
  · rintro ⟨hs, ht⟩ g h
    refine (lin_le_abs hs ht g h).trans ?_
    have h1 : |g| ≤ g ^ 2 := by
      rw [← sq_abs]; rcases (abs_nonneg g).lt_or_eq with hg | hg
      · nlinarith
      · rw [← hg]; norm_num
    have h2 : |h| ≤ h ^ 2 := by
      rw [← sq_abs]; rcases (abs_nonneg h).lt_or_eq with hg | hg
      · nlinarith
      · rw [← hg]; norm_num
    have : |g| + |h| ≤ qs g h := by unfold qs; linarith
    exact_mod_cast this

theorem square_tie {s t : ℝ} (hs : |s| ≤ 1) (ht : |t| ≤ 1) {g h : ℤ}
    (he : s * g + t * h = qs g h) : -1 ≤ g ∧ g ≤ 1 ∧ -1 ≤ h ∧ h ≤ 1 := by
  have h1 := lin_le_abs hs ht g h
  rw [he] at h1
  have h2 : qs g h ≤ |g| + |h| := by exact_mod_cast h1
  unfold qs at h2
  have hb : (|g| - 1) ^ 2 + (|h| - 1) ^ 2 ≤ 2 := by
    nlinarith [sq_abs g, sq_abs h, abs_nonneg g, abs_nonneg h]
  obtain ⟨b1, b2, b3, b4⟩ := small_of_sq hb
  have k1 : |g| ≤ 1 := by
    by_contra hc
    have : |g| = 2 := le_antisymm (abs_le.2 ⟨b1, b2⟩) (by omega)
    have hh : |h| ≤ h ^ 2 := by
      rw [← sq_abs]; rcases (abs_nonneg h).lt_or_eq with hg | hg
      · nlinarith
      · rw [← hg]; norm_num
    have := sq_abs g
    rw [‹|g| = 2›] at this h2
    omega
  have k2 : |h| ≤ 1 := by
    by_contra hc
    have : |h| = 2 := le_antisymm (abs_le.2 ⟨b3, b4⟩) (by omega)
    have hh : |g| ≤ g ^ 2 := by
      rw [← sq_abs]; rcases (abs_nonneg g).lt_or_eq with hg | hg
      · nlinarith
      · rw [← hg]; norm_num
    have := sq_abs h
    rw [‹|h| = 2›] at this h2
    omega
  have := abs_le.1 k1
  have := abs_le.1 k2
  omega

/-! ### Coordinates -/

/-- Two points with the same products with independent vectors are equal. -/
theorem eq_of_dot {B : Fin 2 → Pt 2} (hB : B 0 0 * B 1 1 - B 0 1 * B 1 0 ≠ 0) {p q : Pt 2}
    (h0 : dot p (B 0) = dot q (B 0)) (h1 : dot p (B 1) = dot q (B 1)) : p = q := by
  simp only [dot, Fin.sum_univ_two] at h0 h1
  refine pt2_ext (mul_right_cancel₀ hB ?_) (mul_right_cancel₀ hB ?_)
  · linear_combination B 1 1 * h0 - B 0 1 * h1
  · linear_combination B 0 0 * h1 - B 1 0 * h0

theorem dot_symPoint (B : Fin 2 → Pt 2) (c : Fin 2 → ℤ) (d : ℝ) (i : Fin 2) :
    dot (symPoint B c d) (B i) = (c 0 * gram B 0 i + c 1 * gram B 1 i) / d := by
  simp only [dot, symPoint, comb_two', gram, Fin.sum_univ_two]
  ring

/-- The reciprocal vectors of the database in two dimensions. -/
theorem bs_two {AS : Fin 2 → Pt 2} : bsCalculator AS =
    ![![2 * Real.pi / (AS 0 0 * AS 1 1 - AS 0 1 * AS 1 0) * AS 1 1,
        -(2 * Real.pi / (AS 0 0 * AS 1 1 - AS 0 1 * AS 1 0) * AS 1 0)],
      ![-(2 * Real.pi / (AS 0 0 * AS 1 1 - AS 0 1 * AS 1 0) * AS 0 1),
        2 * Real.pi / (AS 0 0 * AS 1 1 - AS 0 1 * AS 1 0) * AS 0 0]] := by
  funext i a
  simp only [bsCalculator, Matrix.smul_apply, Matrix.inv_def, Matrix.det_transpose,
    Matrix.adjugate_fin_two, Matrix.det_fin_two, Matrix.of_apply, Matrix.transpose_apply,
    Ring.inverse_eq_inv', smul_eq_mul]
  fin_cases i <;> fin_cases a <;> simp <;> ring

end Verif.LDB

namespace Verif.LDB

open Verif.Latt

theorem hex_corner_iff {s t : ℝ} : ((|s| ≤ 1 ∧ |t| ≤ 1 ∧ |s + t| ≤ 1) ∧ ∃ g h g' h' : ℤ,
    g * h' - h * g' ≠ 0 ∧ s * g + t * h = qh g h ∧ s * g' + t * h' = qh g' h') ↔
    (s = 1 ∧ t = -1) ∨ (s = 0 ∧ t = -1) ∨ (s = -1 ∧ t = 0) ∨ (s = -1 ∧ t = 1) ∨ (s = 0 ∧ t = 1) ∨
      (s = 1 ∧ t = 0) := by
  constructor
  · rintro ⟨⟨hs, ht, hst⟩, g, h, g', h', hind, e1, e2⟩
    obtain ⟨a1, a2, a3, a4, a5⟩ := hex_tie hs ht hst e1
    obtain ⟨b1, b2, b3, b4, b5⟩ := hex_tie hs ht hst e2
    obtain ⟨s1, s2⟩ := abs_le.1 hs
    obtain ⟨t1, t2⟩ := abs_le.1 ht
    obtain ⟨r1, r2⟩ := abs_le.1 hst
    interval_cases g <;> interval_cases h <;> (first | (exfalso; exact a5 (by decide)) | skip) <;>
      interval_cases g' <;> interval_cases h' <;>
      (first
        | (exfalso; exact b5 (by decide))
        | (exfalso; exact hind (by decide))
        | (simp [qh] at e1 e2
           first
            | (exfalso; linarith)
            | exact Or.inl ⟨by linarith, by linarith⟩
            | exact Or.inr (Or.inl ⟨by linarith, by linarith⟩)
            | exact Or.inr (Or.inr (Or.inl ⟨by linarith, by linarith⟩))
            | exact Or.inr (Or.inr (Or.inr (Or.inl ⟨by linarith, by linarith⟩)))
            | exact Or.inr (Or.inr (Or.inr (Or.inr (Or.inl ⟨by linarith, by linarith⟩))))
            | exact Or.inr (Or.inr (Or.inr (Or.inr (Or.inr ⟨by linarith, by linarith⟩))))))
  · rintro (⟨rfl, rfl⟩ | ⟨rfl, rfl⟩ | ⟨rfl, rfl⟩ | ⟨rfl, rfl⟩ | ⟨rfl, rfl⟩ | ⟨rfl, rfl⟩)
    · exact ⟨by norm_num, 1, 0, 0, -1, by norm_num, by norm_num [qh], by norm_num [qh]⟩
    · exact ⟨by norm_num, -1, -1, 0, -1, by norm_num, by norm_num [qh], by norm_num [qh]⟩
    · exact ⟨by norm_num, -1, -1, -1, 0, by norm_num, by norm_num [qh], by norm_num [qh]⟩
    · exact ⟨by norm_num, -1, 0, 0, 1, by norm_num, by norm_num [qh], by norm_num [qh]⟩
    · exact ⟨by norm_num, 1, 1, 0, 1, by norm_num, by norm_num [qh], by norm_num [qh]⟩
    · exact ⟨by norm_num, 1, 1, 1, 0, by norm_num, by norm_num [qh], by norm_num [qh]⟩

theorem square_corner_iff {s t : ℝ} : ((|s| ≤ 1 ∧ |t| ≤ 1) ∧ ∃ g h g' h' : ℤ,
    g * h' - h * g' ≠ 0 ∧ s * g + t * h = qs g h ∧ s * g' + t * h' = qs g' h') ↔
    (s = -1 ∧ t = -1) ∨ (s = -1 ∧ t = 1) ∨ (s = 1 ∧ t = 1) ∨ (s = 1 ∧ t = -1) := by
  constructor
  · rintro ⟨⟨hs, ht⟩, g, h, g', h', hind, e1, e2⟩
    obtain ⟨a1, a2, a3, a4⟩ := square_tie hs ht e1
    obtain ⟨b1, b2, b3, b4⟩ := square_tie hs ht e2
    obtain ⟨s1, s2⟩ := abs_le.1 hs
    obtain ⟨t1, t2⟩ := abs_le.1 ht
    interval_cases g <;> interval_cases h <;> interval_cases g' <;> interval_cases h' <;>
      (first
        | (exfalso; exact hind (by decide))
        | (simp [qs] at e1 e2
           first
            | (exfalso; linarith)
            | exact Or.inl ⟨by linarith, by linarith⟩
            | exact Or.inr (Or.inl ⟨by linarith, by linarith⟩)
            | exact Or.inr (Or.inr (Or.inl ⟨by linarith, by linarith⟩))
            | exact Or.inr (Or.inr (Or.inr ⟨by linarith, by linarith⟩))))
  · rintro (⟨rfl, rfl⟩ | ⟨rfl, rfl⟩ | ⟨rfl, rfl⟩ | ⟨rfl, rfl⟩)
    · exact ⟨by norm_num, -1, 0, 0, -1, by norm_num, by norm_num [qs], by norm_num [qs]⟩
    · exact ⟨by norm_num, -1, 0, 0, 1, by norm_num, by norm_num [qs], by norm_num [qs]⟩
    · exact ⟨by norm_num, 1, 0, 0, 1, by norm_num, by norm_num [qs], by norm_num [qs]⟩
    · exact ⟨by norm_num, 1, 0, 0, -1, by norm_num, by norm_num [qs], by norm_num [qs]⟩

/-- The setting of the two kinds of zones: a form `q` on integer pairs and the two coordinates `s`, `t`
of a point such that distances are compared through `s g + t h` and `q g h`. -/
structure Zone (B : Fin 2 → Pt 2) (q : ℤ → ℤ → ℤ) (κ : ℝ) : Prop where
  pos : 0 < κ
  det : B 0 0 * B 1 1 - B 0 1 * B 1 0 ≠ 0
  form : ∀ c : Fin 2 → ℤ, ∑ i, (c i : ℝ) * ∑ j, gram B i j * c j = κ * q (c 0) (c 1)

theorem Zone.cmp {B : Fin 2 → Pt 2} {q : ℤ → ℤ → ℤ} {κ : ℝ} (z : Zone B q κ) (k : Pt 2)
    (c : Fin 2 → ℤ) :
    (nnorm k ≤ ndist k (comb B c) ↔
      2 * dot k (B 0) / κ * c 0 + 2 * dot k (B 1) / κ * c 1 ≤ q (c 0) (c 1)) ∧
    (ndist k (comb B c) = nnorm k ↔
      2 * dot k (B 0) / κ * c 0 + 2 * dot k (B 1) / κ * c 1 = q (c 0) (c 1)) ∧
    (nnorm k < ndist k (comb B c) ↔
      2 * dot k (B 0) / κ * c 0 + 2 * dot k (B 1) / κ * c 1 < q (c 0) (c 1)) := by
  have h := ndist_sq_comb B k c
  rw [z.form, Fin.sum_univ_two] at h
  have hk := z.pos.ne'
  have h' : ndist k (comb B c) ^ 2 = nnorm k ^ 2 + κ * (q (c 0) (c 1) -
      (2 * dot k (B 0) / κ * c 0 + 2 * dot k (B 1) / κ * c 1)) := by
    rw [h]; field_simp; ring
  have := cmp_of_sq (nnorm_nonneg k) (Real.sqrt_nonneg _) h'
  refine ⟨this.1.trans ?_, this.2.1.trans ?_, this.2.2.trans ?_⟩
  · rw [mul_nonneg_iff_of_pos_left z.pos, sub_nonneg]
  · rw [mul_eq_zero, or_iff_right hk, sub_eq_zero, eq_comm]
  · rw [mul_pos_iff_of_pos_left z.pos, sub_pos]

theorem Zone.inZone {B : Fin 2 → Pt 2} {q : ℤ → ℤ → ℤ} {κ : ℝ} (z : Zone B q κ) (k : Pt 2) :
    InFirstBZ B k ↔ ∀ g h : ℤ,
      2 * dot k (B 0) / κ * g + 2 * dot k (B 1) / κ * h ≤ q g h := by
  constructor
  · intro H g h
    exact ((z.cmp k ![g, h]).1).1 (H ![g, h])
  · intro H c
    exact ((z.cmp k c).1).2 (H _ _)

theorem Zone.corner {B : Fin 2 → Pt 2} {q : ℤ → ℤ → ℤ} {κ : ℝ} (z : Zone B q κ) (k : Pt 2) :
    IsCorner B k ↔ (∀ g h : ℤ, 2 * dot k (B 0) / κ * g + 2 * dot k (B 1) / κ * h ≤ q g h) ∧
      ∃ g h g' h' : ℤ, g * h' - h * g' ≠ 0 ∧
        2 * dot k (B 0) / κ * g + 2 * dot k (B 1) / κ * h = q g h ∧
        2 * dot k (B 0) / κ * g' + 2 * dot k (B 1) / κ * h' = q g' h' := by
  rw [IsCorner, z.inZone]
  refine and_congr_right fun _ => ?_
  constructor
  · rintro ⟨c, d, h1, h2, h3⟩
    exact ⟨c 0, c 1, d 0, d 1, h1, ((z.cmp k c).2.1).1 h2, ((z.cmp k d).2.1).1 h3⟩
  · rintro ⟨g, h, g', h', h1, h2, h3⟩
    exact ⟨![g, h], ![g', h'], h1, ((z.cmp k ![g, h]).2.1).2 h2, ((z.cmp k ![g', h']).2.1).2 h3⟩

/-- A listed point is the point with the right products. -/
theorem Zone.eq_sym {B : Fin 2 → Pt 2} {q : ℤ → ℤ → ℤ} {κ : ℝ} (z : Zone B q κ) (k : Pt 2)
    (c : Fin 2 → ℤ) (d : ℝ) : k = symPoint B c d ↔
      2 * dot k (B 0) / κ = 2 * ((c 0 * gram B 0 0 + c 1 * gram B 1 0) / d) / κ ∧
      2 * dot k (B 1) / κ = 2 * ((c 0 * gram B 0 1 + c 1 * gram B 1 1) / d) / κ := by
  constructor
  · rintro rfl
    rw [dot_symPoint, dot_symPoint]
    exact ⟨rfl, rfl⟩
  · rintro ⟨h0, h1⟩
    have hk := z.pos.ne'
    refine eq_of_dot z.det ?_ ?_
    · rw [dot_symPoint]
      rw [div_left_inj' hk] at h0
      linarith
    · rw [dot_symPoint]
      rw [div_left_inj' hk] at h1
      linarith

end Verif.LDB
